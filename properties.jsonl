{"id": "C01", "title": "Saved programs load back unchanged", "statement": "Writing a compiled program to a file with serial_save and reading the file back with serial_load succeeds and yields a program with the same code bytes, functions (name, start, end, arguments, locals), line table, string table and system-call names; host callbacks come back unbound and nothing else differs except the list of globals, which the format does not carry.", "quantifier": "every program whose counts fit in a signed 32-bit integer and whose names and strings contain no NUL byte and are shorter than 256 bytes", "why_tests_cant": "The space of programs (nested tables of arbitrary length) is infinite; a test only round-trips a handful of files.", "anchors": ["source/lib_common/program.cpp: program_t::serial_save, program_t::serial_load", "source/lib_common/file.h: file_t", "source/lib_common/types.h: function_t, identifier_t, line_t"]}
{"id": "C02", "title": "Truncated program files are refused", "statement": "If any non-empty tail of a file produced by serial_save is cut off, serial_load does not report success.", "quantifier": "every saved program and every cut position inside its file", "why_tests_cant": "Every crash point during the write gives a different prefix; tests pick a few.", "anchors": ["source/lib_common/program.cpp: program_t::serial_load, serial_save"]}
{"id": "C03", "title": "Emitted instructions decode to themselves", "statement": "For every instruction the code generator can emit, with any operands, the disassembler and the virtual machine both read back exactly the opcode and operands that were written and both advance by exactly the number of bytes that were written.", "quantifier": "all 40 opcodes, all 32-bit operand values, any surrounding bytes", "why_tests_cant": "2^64 operand combinations per opcode and any code position.", "anchors": ["source/lib_compiler/codegen.cpp: codegen_pass_t::emit", "source/lib_compiler/disassembler.cpp: disassembler_t::disasm", "source/lib_vm/thread.cpp: thread_t::read_operand_, read_opcode_, step_imp_", "source/lib_compiler/program_builder.h: write8, write32"]}
{"id": "C04", "title": "Disassembly listing covers the code exactly once", "statement": "Walking a code buffer that is a concatenation of emitted instructions with the disassembler lists exactly those instructions in order, ends exactly at the end of the buffer and never reads outside it.", "quantifier": "every sequence of instructions with any operands, of any length", "why_tests_cant": "A boundary mistake in one opcode desynchronises everything after it; only all sequences settle that.", "anchors": ["source/lib_compiler/disassembler.cpp: disassembler_t::disasm, dump", "source/lib_compiler/codegen.cpp: emit"]}
{"id": "C05", "title": "Patched jump targets touch only their operand", "statement": "Patching a forward reference overwrites exactly the four operand bytes of the instruction it was reserved for: the patched instruction decodes to the same opcode with the new target, every other byte of the code is unchanged and the code keeps its length.", "quantifier": "every code buffer, every emitted instruction with an operand, every new target value", "why_tests_cant": "Depends on every buffer position and every value; off-by-one corrupts neighbours silently.", "anchors": ["source/lib_compiler/program_builder.h: apply_fixup, get_fixup, write32", "source/lib_compiler/codegen.cpp: emit"]}
{"id": "C06", "title": "Lexing never leaves the source buffer", "statement": "Lexing a NUL-terminated source either yields tokens or reports a lexical error, and never reads beyond the terminating NUL. (Violated by the code for a source whose last line is a comment without a newline; proved for all others.)", "quantifier": "every byte string as source", "why_tests_cant": "An out-of-bounds read is not visible in a test's output and depends on the exact end of the input.", "anchors": ["source/lib_compiler/lexer.cpp: lexer_t::lex"]}
{"id": "C07", "title": "Token streams end in exactly one end-of-file token", "statement": "A successfully lexed source ends with the end-of-file token and contains no other one, so the parser's look-ahead is always defined.", "quantifier": "every byte string as source", "why_tests_cant": "Must hold for every input text.", "anchors": ["source/lib_compiler/lexer.cpp: lexer_t::lex", "source/lib_compiler/token.h: token_stream_t"]}
{"id": "C08", "title": "Tokens carry their source line", "statement": "Every token other than end-of-line produced by the lexer carries the number of the line on which its text stands (one plus the number of newlines before it), so that errors, the line table and breakpoints refer to the right line.", "quantifier": "every source text and every token in it", "why_tests_cant": "All positions in all texts, including after comments and blank lines.", "anchors": ["source/lib_compiler/lexer.cpp: lexer_t::lex, push_* functions", "source/lib_compiler/token.h: token_t"]}
{"id": "C09", "title": "Lexing inverts printing of tokens", "statement": "Writing any sequence of identifiers, integers, strings, keywords, operators and line ends separated by blanks and lexing the text yields the same sequence of tokens.", "quantifier": "every finite token sequence whose identifiers are legal non-keywords, strings contain no quote or newline, integers are in range", "why_tests_cant": "Infinite space of token sequences; adjacency effects between any two kinds of tokens.", "anchors": ["source/lib_compiler/lexer.cpp: lexer_t::lex, munch_, lex_string_, lex_number_, push_ident_, push_val_"]}
{"id": "C10", "title": "Keywords are matched whole and case-insensitively", "statement": "A word is read as a keyword exactly when it equals one of the keywords ignoring case; any longer word that merely starts with a keyword is read as one identifier.", "quantifier": "every word of letters, digits and underscores starting with a letter, in every context that ends the word", "why_tests_cant": "All words, all capitalisations.", "anchors": ["source/lib_compiler/lexer.cpp: munch_, lex", "source/lib_compiler/lexer.h"]}
{"id": "C11", "title": "Source lines reproduce the source", "statement": "Asking a source for its lines 1..n and concatenating them gives back the loaded text; each line contains at most one newline and only at its end; asking for a line beyond the last one fails and yields an empty string.", "quantifier": "every NUL-free source text and every line number", "why_tests_cant": "All texts, in particular those without trailing newline or with empty lines.", "anchors": ["source/lib_common/source.h: source_t", "source/lib_common/source.cpp"]}
{"id": "C12", "title": "A successful load makes the file part of the build", "statement": "After source_manager_t::load(path) returns true, the text of that file is one of the sources to be compiled; a file is loaded at most once. (Violated: a file whose path merely extends an already loaded path, or any file after one failed load, is silently skipped; proved when no loaded path is such a prefix.)", "quantifier": "every sequence of load calls, every file system content", "why_tests_cant": "Depends on the whole history of loads.", "anchors": ["source/lib_common/source.h: source_manager_t::load, path_cmp_"]}
{"id": "C13", "title": "Binary operators nest by precedence and to the left", "statement": "An expression built from operands, parentheses and binary operators only is parsed into the tree prescribed by the precedence table (and/or < comparisons < + - < * / %) with left association: printing any such tree with the minimal parentheses and parsing it gives the tree back.", "quantifier": "every binary expression tree of any size and shape", "why_tests_cant": "Infinitely many shapes; shunting-yard mistakes show only for particular nestings.", "anchors": ["source/lib_compiler/parser.cpp: parse_expr_, parse_expr_ex_, op_push_, op_reduce_, op_pop_all_, op_type_"]}
{"id": "C14", "title": "Unary operators apply to their own operand", "statement": "-a and not a apply to the operand that follows them with a precedence above the binary operators around them. (Violated by the parser: '-a + b' is parsed as 'a + (-b)' and 'not a and b' as 'a and (not b)'; proved for a unary operator applied to a single operand or a parenthesised expression standing at the end of its expression.)", "quantifier": "every expression that contains a unary operator", "why_tests_cant": "The existing test '-3 * -2' passes by accident; the claim is about all operand shapes.", "anchors": ["source/lib_compiler/parser.cpp: parse_expr_ex_, op_push_, op_reduce_"]}
{"id": "C15", "title": "Parsing always terminates inside the token stream", "statement": "Parsing the token stream of any source text finishes with a tree or a reported error; it never loops forever and never reads a token past the end-of-file token. (Violated for an import that is not followed by a string: making the error message fails an assertion.)", "quantifier": "every token stream that ends in its only end-of-file token", "why_tests_cant": "Non-termination and out-of-range reads cannot be excluded by running finitely many inputs.", "anchors": ["source/lib_compiler/parser.cpp: parse and all parse_* functions", "source/lib_compiler/token.h: token_stream_t::pop, found"]}
{"id": "C16", "title": "Parsing inverts printing of programs", "statement": "Printing a program (functions, declarations, assignments, if/else, while, for, return, calls, array and member access) in the documented syntax and parsing it yields the same program, with nested if/while/for blocks attributed to the right statement.", "quantifier": "every program tree without unary operators, of any nesting depth and length", "why_tests_cant": "Infinite space of trees.", "anchors": ["source/lib_compiler/parser.cpp: parse_stmt_, parse_if_, parse_while_, parse_for_, parse_return_, parse_function_, parse_expr_"]}
{"id": "C17", "title": "No two visible declarations share a name", "statement": "In every program that passes semantic analysis no variable, argument, global, function or system call has the same name as another one visible at the same point. (Violated: a local variable or argument may have the name of a global declared after its function; proved for the declarations up to that point and among all globals.)", "quantifier": "every program tree", "why_tests_cant": "Scoping rules must hold for every nesting of blocks.", "anchors": ["source/lib_compiler/sema.cpp: sema_multi_decls_t"]}
{"id": "C18", "title": "Names resolve to a declaration in scope", "statement": "In every program that passes semantic analysis each identifier refers to the one declaration of that name visible where it is used, independent of where the nodes happen to lie in memory. (Violated for if/else: both branches share one scope, so a name of the then-branch is visible in the else-branch and, when both branches declare it, the choice depends on addresses; proved for programs where no else-branch mentions a name its then-branch declares.)", "quantifier": "every program tree and every memory layout of its nodes", "why_tests_cant": "Memory layout is not controllable in a test.", "anchors": ["source/lib_compiler/sema.cpp: sema_decl_annotate_t::find_decl_, visit"]}
{"id": "C19", "title": "Calls pass as many arguments as the callee declares", "statement": "In every program accepted by the compiler each direct call to a script function or fixed-arity system call passes exactly the declared number of arguments.", "quantifier": "every program tree", "why_tests_cant": "All programs and call sites.", "anchors": ["source/lib_compiler/sema.cpp: sema_num_args_t"]}
{"id": "C20", "title": "Constants are never assigned and always replaced by their value", "statement": "An accepted program contains no assignment to a constant, and every use of a constant in an expression evaluates to the constant's declared literal.", "quantifier": "every program tree with constants", "why_tests_cant": "All programs.", "anchors": ["source/lib_compiler/sema.cpp: sema_const_t", "source/lib_compiler/ast.h: replace_child"]}
{"id": "C21", "title": "Constant folding preserves results", "statement": "Replacing an operator expression over integer literals by the literal computed at compile time gives the value the virtual machine would compute at run time; when the run-time computation fails with a division by zero, compilation reports that error instead.", "quantifier": "every expression tree over integer literals, any depth, all 32-bit values whose computation does not overflow", "why_tests_cant": "2^32 values per leaf, unbounded depth.", "anchors": ["source/lib_compiler/optimize.cpp: opt_const_expr_t", "source/lib_vm/thread.cpp: do_INS_ADD_ and siblings"]}
{"id": "C22", "title": "Removing code after return preserves behaviour", "statement": "Dropping the statements that follow a return in a function body changes neither results nor effects of calling the function.", "quantifier": "every function body, every state of globals, arrays and arguments", "why_tests_cant": "Equivalence over all programs and states.", "anchors": ["source/lib_compiler/optimize.cpp: opt_post_ret_t"]}
{"id": "C23", "title": "Removing constant branches preserves behaviour", "statement": "Replacing 'if (literal)' by the branch that would be taken changes neither results nor effects. (Violated when the literal comes from a named constant: the pass overwrites the shared literal, so later uses of the constant change value; proved when no two expressions share a literal.)", "quantifier": "every program, every state", "why_tests_cant": "Equivalence over all programs; the violation needs two uses of one constant.", "anchors": ["source/lib_compiler/optimize.cpp: opt_if_remove_t", "source/lib_compiler/sema.cpp: sema_const_t"]}
{"id": "C24", "title": "Variables in scope never share storage", "statement": "Any two arguments or local variables of a function that are in scope at the same time have different stack slots, arguments have negative and locals non-negative offsets below the reserved frame size, and different globals have different global slots.", "quantifier": "every function body of any nesting, every number of arguments and globals", "why_tests_cant": "All nestings of blocks; slot reuse between sibling blocks makes errors appear only for special shapes.", "anchors": ["source/lib_compiler/pre_codegen.cpp: pregen_offset_t"]}
{"id": "C25", "title": "Generated code is stack-balanced", "statement": "Code generated for an expression, when it runs to its end without error, leaves exactly one more value on the stack than before; code for a statement leaves the stack height unchanged; a call consumes its arguments and leaves one result.", "quantifier": "every expression and statement tree, every machine state", "why_tests_cant": "All trees and all run-time values.", "anchors": ["source/lib_compiler/codegen.cpp: visit methods", "source/lib_vm/thread.cpp: do_INS_CALL_, do_INS_RET_, do_INS_LOCALS_, do_INS_POP_"]}
{"id": "C26", "title": "Jumps land on instruction starts of the same function", "statement": "In generated code every jump target is the first byte of an instruction of the same function (or its end), every call target is the first byte of the called function, and every string, global and system-call index is in range.", "quantifier": "every accepted program", "why_tests_cant": "All programs; targets come from patched offsets.", "anchors": ["source/lib_compiler/codegen.cpp: visit(ast_stmt_if_t), visit(ast_stmt_while_t), visit(ast_stmt_for_t), link_calls_"]}
{"id": "C27", "title": "Compiled code computes what the source says", "statement": "Running the generated code of a function from its entry with given arguments returns the value, performs the global and array updates, or raises the thread error that the source-level meaning of its body prescribes; if the source-level execution does not terminate, neither does the code.", "quantifier": "every accepted program, every argument list, every global and array state, unbounded execution length", "why_tests_cant": "Equivalence of two executions over all programs and inputs.", "anchors": ["source/lib_compiler/codegen.cpp: codegen_pass_t", "source/lib_vm/thread.cpp: step_imp_ and do_INS_* handlers"]}
{"id": "C28", "title": "Calls and returns restore the caller", "statement": "When a called function returns, execution continues right after the call, the caller's arguments and locals are untouched, and the call's arguments on the stack are replaced by the single return value.", "quantifier": "every stack content, frame stack, argument count, local count and call depth", "why_tests_cant": "All depths and stack contents.", "anchors": ["source/lib_vm/thread.cpp: do_INS_CALL_, do_INS_RET_, enter_, leave_, do_INS_ICALL_"]}
{"id": "C29", "title": "Integer arithmetic is exact or reports", "statement": "On two integers + - * / % and comparisons give the mathematical result (division truncating toward zero) whenever it is representable in 32 bits; division and remainder by zero set the divide-by-zero thread error and push nothing that is used; only results outside 32 bits are undefined.", "quantifier": "all pairs of 32-bit integers", "why_tests_cant": "2^64 pairs.", "anchors": ["source/lib_vm/thread.cpp: do_INS_ADD_, do_INS_SUB_, do_INS_MUL_, do_INS_DIV_, do_INS_MOD_, do_INS_LT_ ..."]}
{"id": "C30", "title": "Ill-typed operations stop the thread", "statement": "Applying an operator to operand types it does not support (and that no host handler accepts) sets the bad-type-operation error; the thread is then finished and no later resume executes any of its instructions.", "quantifier": "all operand values, every later sequence of resume calls", "why_tests_cant": "All values and all continuations.", "anchors": ["source/lib_vm/thread.cpp: do_INS_* handlers, set_error_, resume"]}
{"id": "C31", "title": "Array accesses are bounds-checked", "statement": "Reading or writing an array element with an index outside 0..length-1 sets the array-bounds error and changes no array, global or local; an in-range write is seen by the next read of that element through every alias and changes no other element of any array.", "quantifier": "all arrays, indices, values and alias patterns", "why_tests_cant": "All heaps and indices including negative ones.", "anchors": ["source/lib_vm/thread.cpp: do_INS_DEREF_, do_INS_SETA_"]}
{"id": "C32", "title": "String concatenation keeps both operands", "statement": "Adding a string and another value yields the string followed (or preceded) by the complete textual form of the other value. (Violated: the converted operand is cut to 15 characters; proved for operands whose text has at most 15 characters.)", "quantifier": "all strings and values", "why_tests_cant": "All lengths; needs an operand longer than the hidden buffer.", "anchors": ["source/lib_vm/thread.cpp: do_INS_ADD_, to_string"]}
{"id": "C33", "title": "Logical operators and truth", "statement": "and, or and not evaluate all their operands and yield integer 1 or 0 according to the truth of the operands (none, 0, 0.0 and the empty string are false, everything else is true); conditional statements branch on the same notion of truth.", "quantifier": "all values", "why_tests_cant": "All values of all types.", "anchors": ["source/lib_vm/thread.cpp: do_INS_AND_, do_INS_OR_, do_INS_NOT_, do_INS_TJMP_, do_INS_FJMP_", "source/lib_vm/value.cpp: as_bool"]}
{"id": "C34", "title": "Equality is a partial equivalence", "statement": "== yields 1 or 0 or stops with a type error; where defined it is symmetric, reflexive on integers, strings, functions and none, none equals only none, and integer, string and function equality is value equality.", "quantifier": "all pairs of values", "why_tests_cant": "All pairs of values.", "anchors": ["source/lib_vm/thread.cpp: do_INS_EQ_"]}
{"id": "C35", "title": "A quantum bounds the instructions executed", "statement": "thread_t::resume(n) executes at most n instructions, and exactly n unless the thread finishes, fails or halts; splitting a quantum into two consecutive resumes gives the same state as one resume with the sum, unless the thread halts in between.", "quantifier": "every thread state and program, all n", "why_tests_cant": "All programs and quanta.", "anchors": ["source/lib_vm/thread.cpp: thread_t::resume, step_imp_"]}
{"id": "C36", "title": "Finished or failed threads stay so", "statement": "Once a thread is finished or has an error, resume on it returns false, executes nothing and changes no state; the next vm_t::resume pass drops it.", "quantifier": "every thread and VM state, every later sequence of resume calls", "why_tests_cant": "Unbounded histories.", "anchors": ["source/lib_vm/thread.cpp: resume", "source/lib_vm/vm.cpp: vm_t::resume"]}
{"id": "C37", "title": "Every runnable thread gets one quantum per pass", "statement": "A vm_t::resume pass that reports success visits each thread in list order exactly once: sleeping threads count down by one, finished ones are removed, all others run for one quantum; threads spawned during the pass are kept for the next pass and do not run in this one.", "quantifier": "every list of threads and every program", "why_tests_cant": "All numbers and states of threads.", "anchors": ["source/lib_vm/vm.cpp: vm_t::resume, new_thread"]}
{"id": "C38", "title": "wait(n) sleeps n passes", "statement": "After a script calls wait(n) with n >= 0 the thread executes nothing during the next n passes of vm_t::resume and is run in the following pass. (Violated for negative n: the thread is never run again within 2^31 passes; recorded with a counterexample.)", "quantifier": "all n, every history of passes", "why_tests_cant": "Unbounded number of passes.", "anchors": ["source/lib_builtins/builtin.cpp: vm_wait", "source/lib_vm/vm.cpp: vm_t::resume"]}
{"id": "C39", "title": "Threads cannot touch each other's stacks", "statement": "Executing instructions of one thread leaves the stack, frames, program counter and error state of every other thread unchanged; threads interact only through globals and shared arrays.", "quantifier": "every instruction, every set of threads, every interleaving", "why_tests_cant": "All interleavings.", "anchors": ["source/lib_vm/thread.cpp", "source/lib_vm/vm.cpp"]}
{"id": "C40", "title": "Breakpoints stop at their line", "statement": "With breakpoints set, a resume returns before executing the first instruction after entering a line that has a breakpoint, and resuming again continues past it; with no breakpoints it never halts on its own.", "quantifier": "every program, line table, set of breakpoints and execution", "why_tests_cant": "All executions.", "anchors": ["source/lib_vm/thread.cpp: step_imp_, breakpoint_add, breakpoint_remove"]}
{"id": "C41", "title": "Garbage collection preserves what the program sees", "statement": "A collection leaves every value reachable from globals and thread stacks unchanged in type and content, arrays keep their identity (two references to the same array still refer to one array, two different arrays stay different), and the roots keep their order and number.", "quantifier": "every heap without cyclic arrays, every root set, provided the target space suffices", "why_tests_cant": "All heaps and alias patterns.", "anchors": ["source/lib_vm/vm_gc.cpp: trace, collect", "source/lib_vm/vm.cpp: gc_collect"]}
{"id": "C42", "title": "After a collection nothing refers to the cleared space", "statement": "After a collection all values reachable from the roots lie in the surviving space, so clearing the other one leaves no dangling reference.", "quantifier": "every heap and root set", "why_tests_cant": "Dangling references surface only with particular alias patterns and collection times.", "anchors": ["source/lib_vm/vm_gc.cpp: trace, collect"]}
{"id": "C43", "title": "Garbage collection terminates", "statement": "A collection terminates for every heap. (Violated: an array that contains itself sends the tracer into unbounded recursion; proved for acyclic heaps and, conversely, non-termination proved for every root that reaches a cycle.)", "quantifier": "every heap", "why_tests_cant": "Non-termination cannot be observed by finite testing.", "anchors": ["source/lib_vm/vm_gc.cpp: trace"]}
{"id": "C44", "title": "Allocations are disjoint and in bounds", "statement": "Every allocation that succeeds returns a fresh range inside the arena that overlaps no earlier live allocation; an allocation that would not fit fails and changes nothing.", "quantifier": "every sequence of allocations of any sizes and clears", "why_tests_cant": "All histories.", "anchors": ["source/lib_vm/vm_gc.h: arena_t::alloc, clear"]}
{"id": "C45", "title": "Collection points are unobservable", "statement": "Running a program with collections at arbitrary instruction boundaries yields the same results, errors, globals and spawned threads as running it without any collection, as long as memory suffices.", "quantifier": "every program, every schedule of collections, every execution length", "why_tests_cant": "All schedules of collections.", "anchors": ["source/lib_vm/thread.cpp: tick_gc_, step_inst", "source/lib_vm/vm_gc.cpp", "source/lib_vm/vm.cpp: gc_collect"]}
{"id": "C46", "title": "Built-in functions compute their documented result", "statement": "abs, min, max, bitand, len, chr, new_array, wait and the rounding functions return the documented value for every argument of the supported type, consume exactly their arguments and push exactly one result, and set the bad-argument error for every other type.", "quantifier": "all argument values", "why_tests_cant": "All values of all types.", "anchors": ["source/lib_builtins/builtin.cpp"]}
{"id": "C47", "title": "Every registered built-in is bound", "statement": "Every built-in function that the compiler makes known to scripts is bound to an implementation by the resolve step of the run time, and resolving a name binds every table entry of that name and no other.", "quantifier": "all built-ins; every system-call table", "why_tests_cant": "The registration and resolution lists are kept by hand in two places; tables are arbitrary.", "anchors": ["source/lib_builtins/builtin.cpp: builtins_register, builtins_resolve", "source/lib_common/program.cpp: syscall_resolve"]}
{"id": "C48", "title": "Spawned threads start with the given arguments", "statement": "new_thread(f, a1, ..., an) starts a thread at f whose parameters are a1..an in order, provided f takes n arguments and no argument is an array; with the wrong number of arguments no thread is started.", "quantifier": "every function, argument list and VM state", "why_tests_cant": "All argument lists.", "anchors": ["source/lib_builtins/builtin.cpp: vm_new_thread", "source/lib_vm/vm.cpp: new_thread", "source/lib_vm/thread.cpp: prepare"]}
{"id": "C49", "title": "Global initialisers run in order before main", "statement": "After the initialisation call has run to completion every global holds the value of its initialiser evaluated in declaration order, globals without initialiser hold none, and their number equals the number of declared non-constant globals.", "quantifier": "every accepted program whose initialisation terminates", "why_tests_cant": "All programs.", "anchors": ["source/lib_compiler/pre_codegen.cpp: pregen_init_t", "source/lib_vm/vm.cpp: call_init", "source/lib_vm/thread.cpp: do_INS_GLOBALS_"]}
{"id": "C50", "title": "Uninitialised variables read as none", "statement": "A local variable declared without initialiser holds none until it is assigned. (Violated: a reused slot or a repeated loop iteration keeps the old value; proved for the first use of each frame slot.)", "quantifier": "every function and execution", "why_tests_cant": "Depends on slot reuse along particular paths.", "anchors": ["source/lib_compiler/codegen.cpp: visit(ast_decl_var_t)", "source/lib_vm/thread.cpp: do_INS_LOCALS_", "source/lib_compiler/pre_codegen.cpp: pregen_offset_t"]}
{"id": "C51", "title": "Opcode classification agrees with the encoding", "statement": "The queries 'does this opcode carry an operand' and 'may this opcode branch' give the answer that the encoding and the machine give. (Violated for ICALL, NEW_ARY, NEW_FUNC, NEW_SCALL; proved for all other opcodes.)", "quantifier": "all 40 opcodes", "why_tests_cant": "A finite table, but the claim ties three separately maintained tables together.", "anchors": ["source/lib_common/instructions.cpp: ins_has_operand, ins_will_branch", "source/lib_compiler/disassembler.cpp", "source/lib_compiler/codegen.cpp: emit"]}
{"id": "C52", "title": "Function lookup is consistent", "statement": "Looking a function up by name returns the first function of that name; looking it up by code address returns the function whose code range contains the address, and for generated code every code address belongs to exactly one function.", "quantifier": "every function table, every name and address", "why_tests_cant": "All tables and addresses.", "anchors": ["source/lib_common/program.cpp: function_find", "source/lib_compiler/codegen.cpp: visit(ast_decl_func_t)"]}
{"id": "C53", "title": "A for loop runs its body for start..end-1", "statement": "for (i = a to b) with integer a, b and a body that does not change i or b runs the body for i = a, a+1, ..., b-1 in order and not at all when a >= b, leaving i = max(a, b).", "quantifier": "all 32-bit a and b, every body", "why_tests_cant": "All bounds and bodies.", "anchors": ["source/lib_compiler/codegen.cpp: visit(ast_stmt_for_t)"]}
{"id": "C54", "title": "Imports are looked up next to the importing file", "statement": "import \"p\" in a file with path dir/file (either kind of slash) looks up dir/p. (Violated for files given without a directory: the import is looked up in the root directory.)", "quantifier": "every path of the importing file and every imported path", "why_tests_cant": "All paths, with any mix and number of slashes.", "anchors": ["source/lib_common/source.cpp: base_path, source_manager_t::imported_path"]}
{"id": "C55", "title": "Data moving instructions have exactly their documented effect", "statement": "Reading an operand yields the four bytes behind the opcode; the constant instructions push exactly their constant; POP, LOCALS, GLOBALS, GETG, SETG, JMP, SCALL, ICALL, GETM .length and ARY_INIT change exactly the part of the state they name, and the global accesses outside the globals stop the thread without writing.", "quantifier": "every machine state and operand", "why_tests_cant": "All stacks, globals, memories and operands.", "anchors": ["source/lib_vm/thread.cpp: do_INS_*_"]}
{"id": "C56", "title": "Compiled programs do not go wrong", "statement": "In every state a machine with a compiled program gets to, each instruction finds its operands on the stack, its frame, its code and its strings, and takes the machine to such a state again; the only abnormal ends are integer results that do not fit, text plus a value without text, a call of none, and listed faults of host functions; the only errors are run-time errors of the program. (Violated by binary `not` and by built-in functions with a fixed number of arguments used as values, whose argument count the machine does not check.)", "quantifier": "every compiled program without those two constructs, every schedule, every sequence of host calls, every reachable state", "why_tests_cant": "All programs, schedules and host sessions.", "anchors": ["source/lib_vm/thread.cpp: step_imp_ and do_INS_*_", "source/lib_compiler/codegen.cpp"]}
{"id": "C57", "title": "Compiled programs do what their source text says", "statement": "Read a parsed program by lexical scoping, with an evaluator that looks names up while it runs and knows nothing of the passes of the compiler. If the source says that a call returns a value, ends with an error, stops abnormally or goes on for ever, then the call on the machine with the compiled program does the same and leaves the same state, with and without the optimiser, for every layout of the nodes in memory, and on the collected heap whenever the collector runs; likewise for the initialisers of the global variables. Conversely every result of the machine is the one the source says. (Violated by else branches that mention a name their then branch declares, C18, and, with the optimiser, by ifs that test just a constant, C23.)", "quantifier": "every accepted program without those two constructs and below 2^31 declarations and locals, every call, every state of the machine", "why_tests_cant": "All programs and inputs, through all passes of the compiler, and all collection schedules.", "anchors": ["source/lib_compiler/nano.cpp:60-72", "source/lib_compiler/sema.cpp", "source/lib_compiler/optimize.cpp", "source/lib_compiler/codegen.cpp", "source/lib_vm/thread.cpp"]}
{"id": "C58", "title": "Every source is compiled once, in order", "statement": "build compiles the concatenation of the trees of its sources, in their order, with the registered system calls in front. The sources are the given ones, then the imported files, each once and under the path it was opened with. If the texts are written by the rules of the lexer and the grammar as the trees of a program, it is that program. If finitely many paths can be opened, build ends. (Violated: a file that imports itself as ./x is read under ever longer paths.)", "quantifier": "all file systems, all texts, all sequences of imports", "why_tests_cant": "All import graphs.", "anchors": ["source/lib_compiler/nano.cpp:28-79", "source/lib_compiler/parser.cpp: parse, parse_import", "source/lib_compiler/source.cpp"]}
{"id": "C59", "title": "The strings of a program come from its source", "statement": "Every string in the string table of a compiled program is a string literal or a member name of its source: the passes make up no strings and change none.", "quantifier": "every accepted program, every layout, with and without the optimiser", "why_tests_cant": "All programs.", "anchors": ["source/lib_compiler/sema.cpp", "source/lib_compiler/optimize.cpp", "source/lib_compiler/codegen.cpp", "source/lib_compiler/asm.cpp"]}
{"id": "C60", "title": "From texts to the machine", "statement": "For every program built from texts: no declaration is called @init and no string holds a NUL, so that the assumptions of the compiler and of the machine about names and strings are met. A call which by the rules of the language, applied to the tree of the texts, returns a value and leaves certain variables and arrays, does so on the machine with its collected heap, whenever the collector runs, unless memory or the given number of instructions runs out. (Without the constructs for which C18 and C23 are violated.)", "quantifier": "all texts and imports, all sequences of host calls, all collection schedules, every call", "why_tests_cant": "All texts, inputs and collection schedules, through lexer, parser, all passes and the machine.", "anchors": ["source/lib_compiler/nano.cpp:28-79", "source/lib_compiler/lexer.cpp", "source/lib_compiler/parser.cpp", "source/lib_vm/vm.cpp", "source/lib_vm/thread.cpp", "source/lib_vm/vm_gc.cpp"]}
{"id": "C61", "title": "The parser accepts only programs of the grammar", "statement": "Whatever the parser accepts is a program of the grammar, read from all of the tokens, with the tree the parser returns; nothing is left on the parser's stacks; everything else is rejected with a message. Together with C16 the accepted sources and their trees are exactly those of the grammar.", "quantifier": "all token streams, all texts, all imports, whatever an earlier parse left behind", "why_tests_cant": "There are infinitely many wrong programs, and a test names one of them.", "anchors": ["source/lib_compiler/parser.cpp:21-560"]}
{"id": "C62", "title": "The command line driver does with files and input what the source says", "statement": "Run with files whose texts are a program, the driver prints what the rules of the language say that the program prints for the given input, then a line with the value of main, and exits with 0; an error of main gives -6, an error of the initialisers -5, no main -4, a rejected program 1, an unreadable or empty file -2, no file -1, and in the last three cases nothing is printed or written. All of this is the same whenever the collector runs, unless memory or native stack run out; and every run that ends with a value has such an evaluation behind it.", "quantifier": "all files and texts, all inputs, all collection schedules, every number of steps", "why_tests_cant": "All programs and inputs through every stage of the tool, with every schedule of the collector.", "anchors": ["source/driver/driver.cpp:100-224", "source/lib_compiler/nano.cpp:28-102", "source/lib_vm/vm.cpp"]}
{"id": "C63", "title": "Input, output and random numbers", "statement": "Whatever runs, output is only ever appended, input only taken from the front, and random numbers come from one sequence with none skipped or repeated, which never reaches the seed 0 where it would stay. getc gives the characters of the input in order as 0..255 and then -1; gets gives its lines; putc and puts write exactly their argument and leave 0; lines that were printed are read back; rand lies between 0 and 0x7fffff; other types are an error of the program and write nothing.", "quantifier": "all programs, all sequences of host calls, all inputs, all machine states", "why_tests_cant": "Arbitrary inputs, seeds and interleavings.", "anchors": ["source/driver/driver.cpp:9-75"]}
{"id": "C64", "title": "The random numbers have full period and are spread evenly", "statement": "From any seed but 0 the generator comes back to the seed after 2^32-1 steps and never before, and on the way meets every 32-bit number but 0 exactly once. So in 2^32-1 calls of rand every number from 1 to 0x7fffff is drawn exactly 512 times and 0 exactly 511 times, in the same order whenever the machine calls it.", "quantifier": "all seeds but 0, all numbers of steps, all values drawn", "why_tests_cant": "Four thousand million steps from each of four thousand million seeds.", "anchors": ["source/driver/driver.cpp:18-31", "source/driver_sdl/driver.cpp:26-39"]}
{"id": "C65", "title": "Drawing stays inside the frame buffer and paints the right pixels", "statement": "After video has opened a window of a size whose product fits 32 bits, no sequence of cls, setrgb, plot, circle and line calls reads or writes outside the frame buffer or overflows. plot paints the one given pixel if it is on the screen; cls blackens all; circle paints every pixel no further than radius-1 from the centre and only pixels nearer than radius+1; line paints a chain of touching pixels from its start towards its end, as many as its longer side, each off the true line by less than two pixels; nothing else changes.", "quantifier": "all screen sizes, all coordinates and radii (up to 2^29) and slopes, all sequences of calls", "why_tests_cant": "All positions relative to the edges of all screens, all slopes and radii.", "anchors": ["source/driver_sdl/driver.cpp:41-217"]}
{"id": "C66", "title": "flip shows the picture", "statement": "flip copies the frame buffer to the window, each pixel as a square of three by three, and reads and writes nothing outside either.", "quantifier": "all sizes and contents of the frame buffer", "why_tests_cant": "All shapes of the frame buffer; an access behind its end need not show.", "anchors": ["source/driver_sdl/driver.cpp:271-301"]}
{"id": "C67", "title": "Instructions carry the lines they come from, and errors are reported for their line", "statement": "Every instruction of a compiled function is listed in the line table under the line of a word of that function's declaration (or of a constant it uses); the line shown for it is the line of the source text in which that word stands. When an instruction fails, the report names the error and shows the source line of that instruction.", "quantifier": "all programs that compile, all texts they are read from, all instructions and all errors", "why_tests_cant": "Every combination of statement shapes, constants in other files and optimisation decides which token an instruction is recorded under; tests check a few positions.", "anchors": ["source/lib_compiler/codegen.cpp:544-618", "source/lib_compiler/program_builder.h:60-71", "source/lib_vm/thread.cpp:854-856", "source/lib_vm/thread_error.cpp:6-32", "source/lib_common/source.h:114-119", "source/driver/driver.cpp:86-98"]}
{"id": "C68", "title": "The disassembly listing shows the program", "statement": "Listing a compiled program never fails an assertion. The listing shows every function once under a header and all instructions in order, each by its name and operands, with the source line recorded for an instruction wherever it changes; the code can be recovered from the text.", "quantifier": "all programs that compile, of any number and length of functions", "why_tests_cant": "The listing depends on where functions and lines begin and end and on all operand values; tests compare a few outputs.", "anchors": ["source/lib_compiler/disassembler.cpp:10-46", "source/lib_compiler/disassembler.cpp:130-164", "source/lib_common/program.cpp:244-260"]}
{"id": "C69", "title": "The syntax tree that is kept and shown", "statement": "When a build ends, the nodes of the syntax tree that are still part of the program are kept and all others are deleted; dumping the tree then writes every node of the program once per use, in order and indented by its depth, as the program says.", "quantifier": "all trees of nodes, shared or not, of any depth; all programs and all memory layouts that hold their trees", "why_tests_cant": "Which nodes survive depends on every type of node and on sharing; a missed type only shows as a use after free that often goes unnoticed.", "anchors": ["source/lib_compiler/ast.cpp:8-41", "source/lib_compiler/ast.cpp:43-170", "source/lib_compiler/ast.cpp:187-190", "source/lib_compiler/ast.h:660-937"]}
{"id": "C70", "title": "What the compiler driver writes", "statement": "The compiler driver compiles the files named on its command line in their order and, for the options given, writes the syntax tree, the listing and the code to files named after the first source; other files stay as they are. Without arguments it shows its usage (status -1), if a file cannot be read its status is -2, if the compiler finds an error 1, otherwise 0.", "quantifier": "all command lines, all file systems, all sets of files that can be written, all texts", "why_tests_cant": "Options can come anywhere between the files, and files are opened and emptied before others are read; only a few command lines are ever tried.", "anchors": ["source/comp/driver.cpp:23-118"]}
{"id": "C71", "title": "Running a function in slices", "statement": "Starting a thread for a function and running it by resume calls of any sizes ends in the same result, error, globals, input and output and instruction count as calling the function at once, wherever it is interrupted by the end of a slice, breakpoints, waits or collections. A program that does not wait ends in exactly the slice that allows its last instruction.", "quantifier": "all programs that start no threads themselves, all functions and arguments, all earlier calls, all sequences of slice sizes, all collection schedules", "why_tests_cant": "The places where a run can be interrupted are as many as its instructions, and every combination of them must agree.", "anchors": ["source/lib_vm/vm.cpp:55-117", "source/lib_vm/thread.cpp:827-901"]}
{"id": "C72", "title": "A machine that was reset is as good as new", "statement": "After vm_t::reset every sequence of calls to the machine has the same results and effects as on a new machine. (It holds if the first call is call_init, or if there were no globals; reset keeps the old global pointers, so another first call reads freed memory.)", "quantifier": "all compiled programs, all states the machine is reset in, all sequences of host calls, all collection schedules that do not collect an empty heap", "why_tests_cant": "What is left behind depends on everything that ran before, and stale pointers often happen to point to something plausible.", "anchors": ["source/lib_vm/vm.cpp:18-41", "source/lib_vm/vm_gc.h:98-103", "source/lib_vm/thread.cpp:501-507"]}
{"id": "C73", "title": "Random numbers, sleeping and keys in the graphical driver", "statement": "In the graphical driver rand gives the lowest 23 bits of the next number of the generator and changes nothing but its state; sleep with a number halts the thread and sets the wake-up mark to the present tick plus that number on the 32-bit tick counter, and with anything else does nothing; keydown gives 1 or 0 for the six keys it knows by name, none for every other value, and changes nothing.", "quantifier": "all states of the driver, all arguments, all keyboards and clocks", "why_tests_cant": "The clock and the keyboard are outside a test's control, and the counter wraps after 49 days.", "anchors": ["source/driver_sdl/driver.cpp:25-39", "source/driver_sdl/driver.cpp:53-61", "source/driver_sdl/driver.cpp:218-269"]}
{"id": "C74", "title": "Exactly which sources the parser accepts", "statement": "The parser accepts a token stream if and only if it is a file of a grammar of words that includes unary operators (not and - before any expression, and not also where a binary operator may stand); every other source without imports is rejected with a message. Whether a source is accepted does not depend on what earlier parses left behind; two accepted sources one after the other are accepted; and in every accepted source the parentheses, brackets and blocks close in the right order.", "quantifier": "all token streams, all texts, all imports, whatever an earlier parse left behind", "why_tests_cant": "There are infinitely many sources on both sides of the boundary.", "anchors": ["source/lib_compiler/parser.cpp:21-560"]}
{"id": "C75", "title": "The graphical driver runs the program and reports how it ended", "statement": "The graphical driver gives programs exactly its registered functions with their numbers of arguments; it exits with the documented status when SDL, a file, the compiler or main is missing; it gives every runnable thread its 1024 instructions in each round of its loop except while the clock has not passed the mark set by sleep, when it leaves the machine alone; it ends when there is a quit event or the program is over, and its exit status tells whether the program failed; none of this depends on when the collector runs.", "quantifier": "all files, all programs, all answers of SDL (clock, events, keys, windows), any number of rounds", "why_tests_cant": "Time and events can interleave with the program in unboundedly many ways; the failures are at the wrap-around of the clock after 49 days and in programs that end.", "anchors": ["source/driver_sdl/driver.cpp:313-428", "source/lib_vm/vm.cpp:92-121"]}
{"id": "C76", "title": "A compiler object can be used again", "statement": "After reset, and with the functions of the host registered again, a compiler object makes of any sources the same program as a new compiler object, or reports the same error, whatever it compiled before and however that ended (for sources on which a new object does not abort). What earlier builds left on the stacks of the parser, which reset clears only in part, never reaches a program.", "quantifier": "all earlier states of the compiler object, all sources, files and host functions", "why_tests_cant": "A build can fail at any token and leave any stacks behind; leftovers that are deleted nodes need not show in a test even when they are used.", "anchors": ["source/lib_compiler/nano.cpp:16-102", "source/lib_compiler/parser.cpp:744-796", "source/lib_compiler/ast.cpp:172-178", "source/lib_common/program.cpp:217-224"]}
{"id": "C77", "title": "Values shown to the host can be told apart", "statement": "The text a host gets for a value (value_t::to_string) is different for different values, and shows its type: this holds for none, integers, functions, system calls and texts without NUL; a float never looks like an integer if its printed form has a point.", "quantifier": "all values of these types", "why_tests_cant": "Two different values out of unboundedly many could share a text.", "anchors": ["source/lib_vm/value.cpp:46-63"]}
{"id": "C78", "title": "The tree of every accepted source without `not` between operands", "statement": "If no `not` stands right behind an operand, the parser accepts a source with a tree exactly if the following grammar gives it that tree: an expression is a row of operands with binary operators between them, grouped by level and to the left; of its unary operators, minus signs with no `not` behind them apply to the last operand, a `not` applies to everything behind the last `and` or `or`, and minus signs before a `not` apply below it; it does not matter before which operand a unary operator stands. The stacks are left as they were.", "quantifier": "all token lists with no `not` behind an operand token, all sources known before, all leftovers of earlier parses", "why_tests_cant": "Expressions nest without bound, and every combination of positions of unary operators gives another stack behaviour.", "anchors": ["source/lib_compiler/parser.cpp:83-114", "source/lib_compiler/parser.cpp:220-301", "source/lib_compiler/parser.cpp:744-792"]}
{"id": "C79", "title": "A graphical program draws what its source says", "statement": "If the source says that `main` ends, then for all answers of SDL, all clock values and events and all times of collections the graphical driver is still running it, or the picture, the clock mark, the random numbers, the output and the global variables are those the source says; a program that does not wait is over after the loop has let it run a fixed number of times. An error of the source ends the loop, undefined behaviour stops the driver, and a program that goes on for ever goes on.", "quantifier": "all trees accepted by the compiler (without the constructs of C18 and C23), all answers of SDL, all sequences of clock values and events, all collection times, all stack depths", "why_tests_cant": "The loop cuts the run into pieces at places that depend on the clock, events and sleeps, and picture and clock are read by the program while it runs.", "anchors": ["source/driver_sdl/driver.cpp:34-301", "source/driver_sdl/driver.cpp:369-422", "source/lib_vm/vm.cpp:90-130"]}
{"id": "C80", "title": "What a graphical program shows while it is running", "statement": "If the source says that `main` calls functions of the graphical driver at least N times and that the picture is then p, then for all answers of SDL, all clock values and events and all times of collections the picture is p whenever the driver's loop is seen with N such calls made; a program that does not wait has made N calls once the loop has let it run a fixed number of times. The program need not end.", "quantifier": "all N, all trees accepted by the compiler (without the constructs of C18 and C23), all answers of SDL, all sequences of clock values and events, all collection times, all stack depths", "why_tests_cant": "Graphical programs draw in endless loops, so there is no final state to compare; where the loop cuts the run depends on the clock, events and sleeps.", "anchors": ["source/driver_sdl/driver.cpp:34-301", "source/driver_sdl/driver.cpp:369-422", "source/lib_vm/vm.cpp:90-130"]}
{"id": "C81", "title": "Spacing, comments and the case of keywords do not change the program", "statement": "If the texts of two builds (those given and all files that can be imported) consist of the same words - their tokens differ in nothing but lines - then both builds end alike: with the same code, strings, globals, functions and system calls, so that only the line table can differ, or with the same message, or with the same failure. Texts that write the same keywords, symbols, names, strings, numbers and line ends with other blanks between them, other comments and keywords in another case are such texts.", "quantifier": "all texts, all files and imports, all registered system calls, with and without optimizer, all fuels", "why_tests_cant": "Line numbers are carried through lexer, parser, checks, optimizer and code generator; any of them may look at one, for any program.", "anchors": ["source/lib_compiler/lexer.cpp:43-279", "source/lib_compiler/parser.cpp:13-792", "source/lib_compiler/nano.cpp:28-79", "source/lib_compiler/codegen.cpp:1-60"]}
{"id": "C82", "title": "The line table does not influence a run without breakpoints", "statement": "If no thread has breakpoints, then for programs that differ in nothing but the line table a thread's quantum, a pass over all threads, the start-up and a call from outside give the same result and the same state of the machine; hence both drivers end with the same status and output, whatever the line table. With a breakpoint the line table decides where the thread halts.", "quantifier": "all programs (not only compiled ones), all line tables, all memory managers, all machine states without breakpoints, all inputs and answers of SDL", "why_tests_cant": "Every instruction, host function and collection may look at the line table or set breakpoints, and threads come and go while the program runs.", "anchors": ["source/lib_vm/thread.cpp:733-795", "source/lib_vm/thread.cpp:854-891", "source/lib_vm/vm.cpp:43-117", "source/driver/driver.cpp:176-223", "source/driver_sdl/driver.cpp:357-428"]}
{"id": "C83", "title": "A program depends on the files it imports only", "statement": "If two file systems agree on the files that can be reached by import statements from the sources given (those named on the command line), then the build ends with the same program, error or failure, and both drivers do the same. In a build that reads all its sources every source has a text, every import is followed by a string, and one of the sources read is taken for the file next to the importing one: its path is that path up to case and kind of slash, or a beginning of it (the error of the comparison shown with C12).", "quantifier": "all file systems, all texts and import graphs (also cyclic ones), all registered system calls, with and without optimizer, all fuels", "why_tests_cant": "Which other files exist, and all import graphs, cannot be enumerated; a look-up in another directory shows only if a file of that name happens to be there.", "anchors": ["source/lib_common/source.cpp:7-57", "source/lib_compiler/parser.cpp:24-59", "source/lib_compiler/nano.cpp:28-79", "source/driver/driver.cpp:128-224"]}
{"id": "C84", "title": "Every message of the compiler names a line of one of its texts and quotes a word of it", "statement": "If a build ends with a message - of the lexer, the parser, one of the checks or the optimizer - then the file number and the line in it belong to a text of that build: the text of the source with that number if it was given, otherwise the text of a file that can be reached by imports, and a line from 1 to one more than the number of ends of lines in it (a NUL in a comment counts as one). A message of a pass behind the lexer is for the line of a word the lexer found in that text and quotes this word between apostrophes, unless it is one of the two messages without a word (a missing = in a compound assignment, a constant division by zero); the message is cut after 1023 characters. What both drivers write for it names such a line of a file named on the command line or reached from there, and they end with status 1.", "quantifier": "all texts and import graphs, all file systems, all registered system calls, with and without optimizer, all layouts and fuels", "why_tests_cant": "Each of some twenty messages takes its line from another token or from the position of the parser, after passes that replace and share parts of the tree; no set of wrong programs covers all of them.", "anchors": ["source/lib_compiler/errors.h:20-212", "source/lib_compiler/lexer.cpp:160-319", "source/lib_compiler/parser.cpp:13-801", "source/lib_compiler/sema.cpp:16-598", "source/lib_compiler/optimize.cpp:155-306", "source/lib_compiler/nano.cpp:28-79", "source/driver/driver.cpp:77-84", "source/driver_sdl/driver.cpp:303-310"]}
