{
"C01": ["proved", "Round trip for every program whose texts fit the format; texts of 256 bytes or more and texts with NUL bytes are shown not to survive."],
"C02": ["proved", ""],
"C03": ["proved", "Encoding, disassembler and machine fetch."],
"C04": ["proved", ""],
"C05": ["proved", ""],
"C06": ["partial", "Violated by the code for texts that end inside a comment (C06_comment_overruns); numbers beyond 32 bits overflow. All other texts proved."],
"C07": ["proved", ""],
"C08": ["proved", "For texts without NUL bytes; a NUL ends the text."],
"C09": ["proved", ""],
"C10": ["proved", ""],
"C11": ["proved", ""],
"C12": ["partial", "Violated by the code: extensions of a loaded path and everything after a failed load are skipped (C12_prefix_skipped, C12_after_failure). Otherwise proved."],
"C13": ["proved", ""],
"C14": ["partial", "Violated by the code: a unary operator before the first operand of a binary operator is applied elsewhere (C14_minus_left, C14_not_left, C14_violated). Proved for operators whose operand ends the expression or that stand in parentheses with their operand."],
"C15": ["partial", "Violated by the code only where an import is not followed by a string: building the message fails an assertion (C15_import_aborts). Everything else proved."],
"C16": ["proved", ""],
"C17": ["partial", "Proved: the pass accepts exactly the programs whose visible names (local variables in scope, arguments, the function, everything declared before it) are different at every point, and all globals differ. Violated for globals declared after a function, which its local variables may shadow (C17_violated)."],
"C18": ["partial", "Proved for programs in which no else branch mentions a name its then branch declares: annotation equals lexical scoping for every memory layout and the result does not depend on the layout. Violated otherwise: the branches of an if share one scope (C18_violated, C18_leaks)."],
"C19": ["proved", "number-of-arguments pass accepts exactly the programs whose direct calls match; carried over to the optimised tree that code is generated from"],
"C20": ["proved", "no assignment to a constant passes; no constant is left in the translated tree; the values of the uses are those of the declared literals, for calls and start-up (the optimiser can still spoil a shared literal, see C23_violated)"],
"C21": ["proved", "On the evaluator of the annotated tree, which the machine follows by C27."],
"C22": ["proved", "On the evaluator of the annotated tree, which the machine follows by C27."],
"C23": ["partial", "Violated by the code when a constant with value 0 is a condition and used elsewhere (C23_violated). Proved for all other programs, also together with the machine."],
"C24": ["proved", "Distinct locals, arguments and globals of a function never share a stack slot or a global index, and every operand the code generator emits names the slot of the declared variable."],
"C25": ["partial", "Proved for programs without binary `not` and without fixed-count built-ins used as values; violated by both (C25_violated, C56_violated)."],
"C26": ["proved", "Also covers the operands of calls, globals and strings."],
"C27": ["proved", "For calls through call_once on the reference memory; C45 carries runs over to the collected heap. The meaning is that of the annotated tree after the optimiser (C21-C23 relate it to the tree before); reading a variable that was never assigned, or calling a host function with the wrong number of arguments, is excluded (undef)."],
"C28": ["proved", "Machine level for every instruction involved, and whole calls of compiled functions."],
"C29": ["proved", ""],
"C30": ["partial", "Violated by the code: text plus array or system call, and an indirect call of none, fail an assertion (C30_textless_add_aborts, C30_call_none_aborts). All other cases proved."],
"C31": ["proved", ""],
"C32": ["partial", "Violated by the code for numbers with more than 15 characters (C32_long_text_cut). All other cases proved."],
"C33": ["proved", ""],
"C34": ["proved", ""],
"C35": ["proved", ""],
"C36": ["proved", ""],
"C37": ["proved", "For hosts that leave other threads alone and memories that do not move values."],
"C38": ["proved", "For n >= 0; violated for negative n (C38_negative_never_runs)."],
"C39": ["proved", ""],
"C40": ["proved", ""],
"C41": ["proved", "For collections that do not run out of to-space or native stack; the failures are shown to be only those two."],
"C42": ["proved", ""],
"C43": ["partial", "Violated by the code: with an array that contains itself the tracer recurses without end (C43_cycle_diverges). Termination proved for acyclic reachable values."],
"C44": ["proved", "For request sizes below 2^63; larger ones wrap around (C44_huge_size_wraps)."],
"C45": ["proved", "Up to running out of memory or native stack; host functions are the built-ins, program and host strings without NUL."],
"C46": ["proved", ""],
"C47": ["proved", ""],
"C48": ["proved", ""],
"C49": ["proved", "On the reference memory, for hosts that leave other threads alone. call_init runs one quantum of 8192 instructions only: C49_long shows that it may return before the initialisers have ended."],
"C50": ["partial", "Violated by the code when slots are shared (C50_violated) or a declaration is repeated. Proved for the first use of an unshared slot."],
"C51": ["partial", "Violated by the code for ICALL, NEW_ARY, NEW_FUNC, NEW_SCALL (operands) and ICALL (branching); all other opcodes proved."],
"C52": ["proved", ""],
"C53": ["proved", "On the evaluator of the annotated tree, which the machine follows by C27."],
"C54": ["partial", "Violated by the code for a path without directory (C54_import_from_bare_file). Otherwise proved."],
"C55": ["proved", ""],
"C56": ["partial", "Proved for programs without binary `not` and without fixed-count built-ins used as values, which violate it (C56_violated). bad_getv/bad_setv cannot be excluded (C56_lost_slot)."],
"C57": ["partial", "the two constructs for which C18 and C23 are violated are excluded; reading a variable before it is set has no meaning in the source evaluator (C50); call_init stops after 8192 instructions"],
"C58": ["partial", "a file that imports itself under another spelling of its path is read again and again (C58_endless); termination is proved if finitely many paths can be opened"],
"C59": ["proved", "for programs whose declarations are not called @init, which C60_names shows of every program built from texts"],
"C60": ["partial", "the two constructs for which C18 and C23 are violated are excluded; limits on declarations and variables hold for texts of together less than 2^31 bytes (C60_limits)"],
"C61": ["partial", "Both directions for sources without unary operators; with them the parser accepts more than the grammar (C61_violated)."],
"C62": ["partial", "Programs without the constructs for which C18 and C23 are violated; initialisers that call_init gets through (8192 instructions, no wait). Violated: a path that begins with an earlier path is not read (C62_unread), main with parameters is undefined behaviour (C62_parameters)."],
"C63": ["partial", "Violated: gets at the end of input reads an uninitialised buffer (C63_gets_end), a line of 79 characters is followed by an empty one (C63_gets_long), none fails an assertion (C63_none). The rest is proved."],
"C64": ["proved", "Period, orbit and the number of times each value is drawn, for the generator as called by the machine (C64_draws)."],
"C65": ["partial", "Violated: sizes whose product overflows, lines with both sides over 32768 (undefined behaviour); discs lack their right edge (C65_circle_lopsided) and lines their end point (C65_line_end). Bounds of everything else and the sets painted are proved."],
"C66": ["partial", "Violated by pictures higher than wide (C66_flip_tall) and, in part, wider than high; square ones are shown completely (C66_flip_square)."],
"C67": ["partial", "Which words the lines of instructions come from and that get_line shows the line holding that word is proved for all programs built from texts; the report of an error is proved to show the line behind the failing instruction, the intended statement is refuted."],
"C68": ["proved", ""],
"C69": ["partial", "Violated: gc deletes array literals and assignments to members that are still used, and dump then reads them (C69_dangling). Proved: exactly which nodes are kept, and what is written for programs without them."],
"C70": ["partial", "Violated: files are named after an option that comes first (C70_option_first), long names overrun a buffer (C70_overflow), the tree is read after nodes were deleted (C70_tree_partial). Proved for all other command lines."],
"C71": ["proved", "The thread is started when all earlier threads have ended; the call starts none itself (it also comes back with `new_thread` not bound). The count of instructions is for calls that do not wait."],
"C72": ["partial", "proved for sessions that begin with call_init and for machines without globals; for other first calls reset leaves dangling globals (C72_stale_globals)"],
"C73": ["proved", "`Sdl.Fn.call`; the clock and the keyboard are parameters."],
"C74": ["proved", "Acceptance with unary operators; which tree is built for them is C14 and C61."],
"C75": ["partial", "violated: the loop does not end when the program is over (C75_never_ends), a failed program exits with 0 (C75_exit), sleeps end early at the wrap-around of the clock (C75_wraps) and by sleeps of other threads (C75_overwritten); proved otherwise"],
"C76": ["proved", "A used compiler object after reset builds like a new one; leftovers on the parser stacks never matter."],
"C77": ["proved", "The shown text determines the value; texts with NUL are cut (C77_cut)."],
"C78": ["proved", "All accepted sources without a `not` behind an operand, trees included; C78_theft shows what is different there."],
"C79": ["partial", "proved for programs without the constructs of C18 and C23 that start no threads and whose start-up call_init finishes; a wait for a negative number of passes is left open"],
"C80": ["partial", "proved for programs without the constructs of C18 and C23 that start no threads before the call looked at and whose start-up call_init finishes"],
"C81": ["proved", "Builds of texts with the same words end alike (C81_spacing); texts that differ in blanks, comments and the case of keywords have the same words (C81_wordings); both drivers end with the same status and output on such files (C81_driver, C81_sdl)."],
"C82": ["proved", ""],
"C83": ["proved", ""],
"C84": ["proved", "C84_nul: a NUL in a comment counts as the end of a line; the statement says so."]
}
