# Formal model of ccml ("nano") in Lean 4

The code under study is the C++ in `/repo/source` (compiler, virtual machine,
garbage collector, built-ins, program files).  This directory contains a
function-by-function model of it in Lean 4 (`lean/Verif/`), small independent
specifications, and theorems relating the two.

## Conventions of the model

* Bytes are `BitVec 8`, machine integers `BitVec 32` read as two's complement.
  Signed overflow is *undefined behaviour* in C++ and is a distinct outcome of
  the model (`Fault.ub`), never a wrapped value.
* `assert(...)` that fails is the distinct outcome `Fault.assert`
  (the default CMake configuration keeps assertions).
* Reading outside a buffer, dereferencing a null pointer that is not the
  encoding of `none`, or an allocation failure that the code ignores is
  `Fault.ub`.
* `none` is represented in the code by a null `value_t*` on which member
  functions are called.  Strictly this is undefined too; the model takes the
  authors' meaning (type `val_type_none`).
* Floating-point arithmetic, formatting with `%f` and libm functions are
  parameters of the model (any interpretation); nothing is assumed about them.
* Host callbacks (operator handlers, system calls other than the built-ins) are
  parameters of the model.

## Plan, property by property

| id | property | how |
|---|---|---|
| C01 | Saved programs load back unchanged | Model file as byte list; serialise/parse functions for each record; round-trip by induction over each table. |
| C02 | Truncated program files are refused | Same model; show the reader consumes exactly the written bytes and fails on every strict prefix. |
| C03 | Emitted instructions decode to themselves | Model `emit`, `disasm`, VM fetch on byte lists; decode-after-encode lemma per operand class over all 32-bit words. |
| C04 | Disassembly listing covers the code exactly once | Induction over the instruction list using C03. |
| C05 | Patched jump targets touch only their operand | Model `apply_fixup` as list update of 4 bytes; prove frame condition and decode of the patched instruction. |
| C06 | Lexing never leaves the source buffer | Model the lexer as a total function over the buffer including its NUL with a distinct out-of-bounds outcome; invariant on the cursor; witness for the trailing comment. |
| C07 | Token streams end in exactly one end-of-file token | Invariant over lexer steps: only the end state emits the end token. |
| C08 | Tokens carry their source line | Invariant: the lexer's line counter equals 1 + newlines consumed; tokens annotated with positions. |
| C09 | Lexing inverts printing of tokens | Induction over the token list with one lemma per token kind on what the lexer does in front of a blank. |
| C10 | Keywords are matched whole and case-insensitively | Lemma on keyword munching: case-insensitive comparison plus boundary check, for all words. |
| C11 | Source lines reproduce the source | Model line index construction; induction over text. |
| C12 | A successful load makes the file part of the build | Model the manager as a list of (path,text) with the path comparison; history induction; two counterexamples. |
| C13 | Binary operators nest by precedence and to the left | Model the shunting-yard with explicit operator and operand stacks; parse-of-print by induction on trees. |
| C14 | Unary operators apply to their own operand | Same model; counterexamples by evaluation and general theorems for the operand shapes that work. |
| C15 | Parsing always terminates inside the token stream | Fuelled parser model; prove fuel linear in the number of tokens always suffices and that the end of stream is never passed. |
| C16 | Parsing inverts printing of programs | Parse-of-print for statements by mutual induction on trees. |
| C17 | No two visible declarations share a name | Model of the pass; invariant over the traversal against an independent scope specification. |
| C18 | Names resolve to a declaration in scope | Resolution parameterised by an arbitrary memory order of nodes; independence theorem under the branch-disjointness hypothesis; counterexample otherwise. |
| C19 | Calls pass as many arguments as the callee declares | Model of the pass and structural induction. |
| C20 | Constants are never assigned and always replaced by their value | Model of the pass with literal sharing made explicit; structural induction. |
| C21 | Constant folding preserves results | Model the folding pass with overflow as undefined; compare with the evaluation of the un-folded expression. |
| C22 | Removing code after return preserves behaviour | Source semantics (fuelled evaluator); equivalence by induction. |
| C23 | Removing constant branches preserves behaviour | Same, with literal cells to expose sharing; counterexample. |
| C24 | Variables in scope never share storage | Model slot assignment; invariant over the block traversal. |
| C25 | Generated code is stack-balanced | Abstract stack heights of generated code (Heights); invariant over all reachable machine states that the real height is the abstract one; counterexample for binary `not`. |
| C26 | Jumps land on instruction starts of the same function | Induction over code generation with instruction boundaries tracked. |
| C27 | Compiled code computes what the source says | Clocked source semantics against the byte-level machine; forward simulation by induction on fuel, both for results and for time-outs. |
| C28 | Calls and returns restore the caller | Direct theorems on the machine's call/return instructions plus corollary of C27. |
| C29 | Integer arithmetic is exact or reports | 32-bit vectors; step theorem for every pair. |
| C30 | Ill-typed operations stop the thread | Step theorem per operator; invariant over resume. |
| C31 | Array accesses are bounds-checked | Step theorems for element read/write over the array store. |
| C32 | String concatenation keeps both operands | Step theorem with the 15-character cut visible; counterexample. |
| C33 | Logical operators and truth | Step theorems over all values. |
| C34 | Equality is a partial equivalence | Step theorems over all pairs of values. |
| C35 | A quantum bounds the instructions executed | Induction over the quantum. |
| C36 | Finished or failed threads stay so | Induction over histories of resume calls. |
| C37 | Every runnable thread gets one quantum per pass | Induction over the thread list. |
| C38 | wait(n) sleeps n passes | Induction over passes. |
| C39 | Threads cannot touch each other's stacks | Frame property of the step function. |
| C40 | Breakpoints stop at their line | Invariant over the resume loop. |
| C41 | Garbage collection preserves what the program sees | Concrete two-space heap with pointers, tracer with fuel; simulation relation between heaps. |
| C42 | After a collection nothing refers to the cleared space | Invariant of the tracer on the pointers it returns. |
| C43 | Garbage collection terminates | Well-founded measure on acyclic heaps; fuel monotonicity; non-termination by fuel induction on cyclic ones. |
| C44 | Allocations are disjoint and in bounds | Invariant over allocation histories. |
| C45 | Collection points are unobservable | Machine written once over an abstract memory interface; refinement between the two-space heap and the mathematical store for every instruction. |
| C46 | Built-in functions compute their documented result | Step theorem for each built-in over all values. |
| C47 | Every registered built-in is bound | Whole-table check plus induction over arbitrary tables. |
| C48 | Spawned threads start with the given arguments | Theorem on the spawn operation for all argument lists. |
| C49 | Global initialisers run in order before main | Instance of C27 for the generated initialisation function. |
| C50 | Uninitialised variables read as none | Theorem for fresh frames; counterexample program. |
| C51 | Opcode classification agrees with the encoding | Whole finite table, stated opcode by opcode. |
| C52 | Function lookup is consistent | Induction over tables; contiguity invariant of code generation. |
| C53 | A for loop runs its body for start..end-1 | Derived from the loop case of the source semantics by induction on b - a. |
| C54 | Import paths are relative to the importing file | Model of base_path and the import call; theorem for files given with a directory, witness for files without. |
| C55 | Data-moving instructions move exactly the named value | Step theorem per instruction over all states. |
| C56 | Compiled programs do not go wrong | Invariant over all states a machine reaches, preserved by every instruction, thread start and host call; the causes of abnormal ends are an explicit list; counterexamples for the two excluded constructs. Holds for both drivers (`IsDriver`); the faults of the graphical functions are one entry of the list of causes, C65, C66 and C79 say which they are. |
| C57 | Compiled programs do what their source text says | A second evaluator that works on the tree of the parser with names looked up in the blocks around them (`Src`); simulation by the evaluator of the annotated tree (`SrcSim`), completeness of constant folding (`SrcConst`), then C20, C23, C27, C49 and C45 composed. For every way to bind the names of host functions (`resolveWith`), so for both drivers; the evaluator calls the graphical functions of `Sdl` as host functions that draw on the picture in `Io`. More fuel never changes a result of the evaluator (`SrcPart`, `C57_one_meaning`), so the meaning does not depend on it. |
| C58 | Every source is compiled once, in order | The loop of `build` as a list of rounds (`BuildFacts`); induction over the rounds with the facts about lexer (C09), parser (C16) and source manager; an invariant of the trees the parser makes (`ParserTree`); termination by the paths not opened yet. |
| C59 | The strings of a program come from its source | A predicate on strings carried through every pass (`StrFacts`). |
| C60 | From texts to the machine | Names and strings of lexed tokens (`LexTok`) carried through the parser (`ParserTree`), then C57; for every way to bind the names of host functions. The limit on declarations and variables (`Src.Small`) holds for texts of together less than 2³¹ bytes: every declaration takes a token and every token a byte (`SrcSize`, `C60_limits`). |
| C61 | The parser accepts only programs of the grammar | What each parser function eats from the token stream (`ParserOnly`, an induction over the fuel with the two operator stacks as parameters), against the grammar `Gram.ReadsP`. Partial: sources without unary operators, for which the parser's behaviour is another (C14); `C61_violated` shows an accepted source outside the grammar. |
| C62 | The command line driver does with files and input what the source says | `driverMain` (`Driver`) composes loading, `build`, the binding of host functions, `call_init`, `call_once` and `print_result`; C58, C57, C49 and C45 composed, and a frame lemma that other threads make no difference to the source evaluator (`SrcFrame`). Partial: the constructs of C18 and C23, and start-ups that `call_init` does not finish; violations below. |
| C63 | Reading, writing and random numbers of the host functions | What host functions do is part of the machine (`Io`); every operation of the machine only appends to the output, only eats from the input, only advances the generator (`IoNext` as part of the frame relation of all instructions, `IoFacts`); `xorshift32` is injective and never reaches 0. Violations for `gets` below. |
| C64 | Full period of the random numbers | `xorshift32` is linear over the two-element field; its powers `T^(2^k)` and inverses of `T^q + 1` are given as matrices (`XorShiftData`, generated by `tools/xorshift_data.py`, nothing assumed about them) and checked column by column by the kernel (`XorShift.powers`); that the order is exactly 2^32-1 follows from the prime factors 3, 5, 17, 257, 65537. Counting (`C64_even`) uses Mathlib's `Finset` (Mathlib is imported only here and for the arithmetic of C65 and C66). |
| C65 | Drawing functions of the graphical driver | `Sdl` models `driver_sdl/driver.cpp` on a frame buffer with bounds-checked accesses and range-checked `int32_t` arithmetic; what is drawn is a set of pixels (`Painted`). `circle`: invariant of the decision variable, `p = (x+1)^2 + y^2 + y - r^2 - 2r` (the code adds 1 where the midpoint method adds 3, so it follows a circle of radius r+1), and of the rows already filled. `line`: fixed-point slope with accumulated truncation. |
| C66 | `flip` | Loop invariants over rows and columns. The inner loop runs to the height: a picture higher than wide is undefined behaviour, of a wider one only the first `height` columns are shown. |
| C67 | Lines of instructions and of errors | Tokens followed from the texts through the parser (`ParserTree`), the passes (`TokFacts`) and the code generator (`TokLines`) into the line table; C08 gives the words their lines; `Pc` says where each instruction leaves the program counter. `on_runtime_error` is modelled (`Report`) although both drivers have its call commented out. Partial: the report shows the instruction behind the failing one; violations below. |
| C68 | The disassembly listing | The text written by `disassembler_t::dump` (`Listing`), proved by induction over the functions and their instructions; names and operands are shown to be readable back, so equal listings mean equal code. |
| C69 | The syntax tree in memory | Nodes at addresses (`Tree`), `gc` and `dump` by recursion over them; a relation between memory and programs (`IsP`) and a text written down for programs (`showP`); proved by induction over trees. Violated: see below. That the parser and the passes leave such a tree behind is not proved (their models work on trees, not nodes); the optimiser can leave null pointers in place of blocks, which `IsP` does not cover. |
| C70 | The compiler driver | `compMain` (`Comp`) over a file system that is a function from paths to contents; the loop over the arguments is proved to leave a state described by the options that occur (`afterArgs`), the rest follows with C68 and C69. |
| C71 | Running a function in slices | Nothing new is modelled. An instruction is shown not to look at the other threads or the number of passes to wait (`Blind`); the run of a thread without the scheduler is a deterministic relation (`Goes`) that both `call_once` and passes of `resume` follow to its end. Lifted to the collected heap by C45. Assumed: the threads before it have ended, and the call starts no threads. That is said by running it with `new_thread` not bound (`Program.without`): calling it would then fail an assertion, and up to there nothing changes (`Without`). For the instruction count `wait` and `sleep` are not bound either. |
| C72 | A machine that was reset is as good as new | `vm_t::reset` (`VmState.reset`). The first instruction of the initialisation code of every compiled program replaces the list of globals, and nothing before it looks at them; so the states become equal after one instruction. Partial: for other first calls the statement is refuted (`C72_stale_globals`): `reset` keeps `g_`, and `call_once` traces it. |
| C73 | `rand`, `sleep`, `keydown` of the graphical driver | The functions of `Sdl` with the clock and the keyboard as parameters (`Outside`); each effect and result stated outright in numbers. |
| C74 | Exactly which sources the parser accepts | Nothing new is modelled: the accepted language of the parser, unary operators included, as a grammar of words (`Lang.File`, without trees). Soundness by induction on fuel, completeness with the stack facts of C15. Consequences stated without the grammar: joining sources and nesting (`Nested`, a stack of missing closing tokens). |
| C75 | The graphical driver | `sdlMain` (driver_sdl/driver.cpp `main`): load, compile, bind, start `main` as a thread, then one round of the loop per element of a list of clock values and quit events. The functions of `Sdl` are host functions of the machine (`HostFn.sdl`), so C36-C39, C45 and C71 cover programs that use them. The collector by the simulation of C45. Violated: the driver goes on for ever when the program is over, exits with 0 after a runtime error, a sleep across the wrap-around of the clock ends at once, and a sleep of one thread ends that of another. |
| C76 | Compiler reuse | `Nano` (the compiler object), `Nano.reset`, `Nano.build`: like `build`, but on any stacks, tree and program. A simulation over all parser functions (`ParserOver`): adding entries below both stacks changes nothing, because every reduction stops at the `tide` of its expression. `parser_t::reset` does not clear `exp_stack_`; `C76_leftovers` shows that this does no harm. `C76_new` connects `Nano.build` with the `build` of the other properties. `C76_forgets`, `C76_needed`: `reset` also forgets the functions of the host, and is needed. |
| C77 | Showing values | `View.show` (`value_t::to_string`); injective by the first character and by C32 for integers. Texts are cut at a NUL (`C77_cut`); floats and addresses are printed by parameters. |
| C78 | Trees of misplaced unary operators | Nothing new is modelled: `Gram.Writes` (`Verif/Signs.lean`) gives the tree of every expression whose unary operators all stand in front of operands. The parser is shown to compute it (`shunt`/`unwind`, the effect of a row on the two stacks), and every accepted source has such a tree (from C74). `not` behind an operand is left out: it can take operands from outside its parentheses (`C78_theft`). |
| C79 | A graphical program draws what its source says | `sdlLoop` is followed along the run of the thread of `main` (`LoopGoes`): passes of at most 1024 instructions, cut short by `sleep`, rounds in which the clock is not past the mark, quit events. C57 gives the run, C45 the collected heap. Started threads are excluded by the meaning without `new_thread` (`unbound`, see C71). Partial: the constructs of C18 and C23, programs that start threads, start-ups that `call_init` does not finish. A `wait` for a negative number of passes is undefined behaviour, which the theorems leave open for programs that call `wait`. `C79_meaning` says that leaving out functions changes the meaning to nothing but a failed assertion. |
| C80 | What a graphical program shows while it is running | `Io.asked` counts the calls of functions of the graphical driver; no other operation changes picture, mark or generator (`IoNext`). The evaluator and the machine are cut behind the N-th call by an error (`cutHost`, `cutEnv`); up to there both do what they do without the cut (`Cut`), so the compiled run passes a state with the picture of the source, and the loop is followed as in C79. A program may start threads later: the loop that fails the assertion of the restricted machine is related to the one that goes on (`loop_missed`). Partial as C79. `C80_meaning`: a meaning that is not cut is the whole meaning. |
| C81 | Spacing, comments and the case of keywords do not change the program | `Bare.*` erases the lines of tokens, trees and line tables. Every function of the parser is shown to give results that are equal after erasing from states that are equal after erasing, or the same message (`Bare.Par`, `exprPar`, `stmtPar`, `par_items`); checks, optimizer and code generator give the same on a tree and its erasure (`compile_bare`). `Wording` writes down the texts that spell the same lexemes. `C81_driver` and `C81_sdl` (with C82): the drivers end with the same status and output on such files. Positions in messages on standard error, breakpoints and the line table written to `temp.bin` may differ and are not part of the claim. |
| C82 | The line table does not influence a run without breakpoints | `LineFree`: every instruction and host function gives the same with another line table; no operation sets breakpoints (`Keep`, an invariant over all threads), so that the only reader, `checkBreak`, does nothing. Lifted over quantum, pass, start-up, calls and the loops of both drivers. |
| C83 | A program depends on the files it imports only | `Needed` is the closure of the given sources under `import "…"` (two neighbouring tokens). `Files.Drops`: every function of the parser leaves a suffix of its tokens and does not touch the sources, so that only pairs that stand in the text reach `parseImport`; two runs over file systems that agree on the needed files are equal, step by step (`items_alike`, `sources_alike`). `C83_followed` uses the grammar of C74: there is no `import` inside expressions and functions. |
| C84 | Every message of the compiler names a line of one of its texts and quotes a word of it | `Blame.Said T e`: the message `e` is for the line of a token with `T` and quotes it. `Blame.Tells`: from a parser state whose position is the line of such a token and whose tokens have `T`, every function of the parser gives such a state or such a message (`exprTells`, `stmtTells`, `tells_items`; `TellsAt` for parts that complain about the token just taken). `Blame.Fine` says the same of the passes on trees made of such tokens (`annS_fine` … `compile_fine`, on top of the token facts of C67; the names of arguments are carried along in `Whole`). With `T` = found by the lexer in a text of the build (`Written`) this is `C84_word`; `lexLoop_err` and `reads_line` bound the lines of the lexer, which gives `C84_build`. C83 makes the files those reached by imports. `complaint` is the line the drivers write to standard error. A NUL in a comment ends a line for the lexer: `C84_nul` shows a text of one line with a message for line 2. |

## How the pieces fit together

1. *Program files and instructions*: `Instr`, `Program` (encoding, tables, saving and loading).
2. *Front end*: `Token`, `Lexer`, `Source`, `Parser` against the grammar in `LexSpec`, `Grammar`.
3. *Compiler*: `Sema` (six passes), `Optimize` (three passes), `Codegen`, `Build` (the import loop).
   `Asm`/`AsmGen`/`AsmProg` show that the byte-emitting code generator with its fix-ups produces the
   bytes of a purely structural translation (`codegen_generated`).
4. *Machine*: `Machine` is written once over an abstract memory (`MemOps`).  `AbsMem` is the memory as
   mathematics (a list of arrays that never moves anything); `Gc` is the two-space collected heap.
   `Sim*` and `Props/Refine` show that the two cannot be told apart (C45).
5. *Meaning*: `Sem` evaluates the annotated tree directly.  `Trace*`, `RunCall`, `Whole` show that the
   machine follows the evaluator instruction by instruction (C27), with every error and abnormal end.
   `Src` evaluates the tree of the parser, by name; `SrcSim`, `SrcConst`, `SrcFits` show that `Sem` on the
   annotated, constant-folded and optimised tree agrees with it (C57).
6. *Safety*: `Heights` computes the height of the stack at every position of generated code; `Safe*`
   show that all reachable states of a machine with a compiled program have that height (C25, C56).

The property theorems are in `lean/Verif/Props/`; everything else is model, specification
(`LexSpec`, `Grammar`, `Src`, `Sem`, `HostSpec`, the first part of `Props/Scopes`) or proof.

## Trusted base

* Lean's kernel, and the axioms `propext`, `Classical.choice`, `Quot.sound` at most (each theorem
  in the manifest was checked with `#print axioms`).  No axioms of our own, no `sorry`, no compiled
  evaluation.
* The reading of the C++ text.  Each definition of the model cites the lines it models.
* *Modelled*: `lib_common` (instructions, program, source), `lib_compiler` (token, lexer, parser,
  ast, sema, optimize, pre_codegen, codegen, program_builder, disassembler, nano), `lib_vm` (value,
  vm_gc, thread, vm), `lib_builtins`, `comp` (the compiler driver), `driver` (the command line driver with its host functions; its
  messages on standard error are left out, and that `temp.bin` can be written is assumed), the functions
  that `driver_sdl` gives to programs and its `main` (the window SDL opens, its clock, keys and events are parameters).
* *Not modelled*: host-defined value types (`val_type_user`); what the drivers write to standard error, except for the messages of the compiler (`driverComplaint`, C84).
  The messages of the compiler are modelled with their texts and lines (`errTok`, `onError`).
* *Parameters* (nothing is assumed about them unless a theorem says so): floating-point arithmetic,
  comparison, conversion and printing (`FloatOps`); the file system behind `import`; the moment the
  collector decides to run (any predicate on heaps); host functions and operator handlers other than
  the built-ins and those of the command line driver; the order of the addresses of syntax-tree nodes (`Layout`; `sema.cpp` keeps
  declarations in a `std::map` keyed by pointers).
* *Simplifications*, also stated in the comments of the definitions: `none` is a null pointer on
  which members are called, and `is_a` tests `this == nullptr`; both are formally undefined and are
  modelled as meant.  Memory is unbounded except where the code has a bound; running out of a
  semispace or of native stack (the collector and the copying of values recurse) are the outcomes `oom` and `diverge`.
  Misaligned placement of `value_t` in the collected space is not an outcome.  `tolower` is that of
  the "C" locale.  Line and cycle counters that only grow are unbounded.  Loops without a bound in the
  code (`call_once`, `step_line`, building) take a number of rounds; reaching it is the outcome `diverge`,
  and theorems hold for every number.
* *Preconditions on the caller* that theorems state: `AskOk` (Verif/SafeRun.lean) for host calls,
  `Fits` for the 32-bit counters, `CleanProgram`/`CleanCall` (no NUL in strings) for the heap.
* The optimiser pass `op_decl_elim` is in the source but not run (`optimize.cpp:384-394`); it is not
  modelled.

## Check against the repository's own tests

The model was run (outside this directory) on the programs in `/repo/tests`: all programs of `xpass`
compile and give the expected result in the model, except for the printing of floats (a parameter)
and for `rand`, `sort*` and `pi`, which overflow signed integers — undefined behaviour in C++ and a distinct outcome of
the model; all programs of `xfail` are refused (or have no `main`).

## Violations found

Where the code violates a property, the negation is proved with a concrete witness, the property is
listed as `partial`, and the remaining part is proved.

| property | what happens | witness |
|---|---|---|
| C06 | a comment at the end of the text without a newline is skipped past the end of the buffer; numbers beyond 32 bits overflow | `C06_comment_overruns` |
| C12 | a path that extends a loaded path is taken for loaded; a failed load leaves an entry that matches everything | `C12_prefix_skipped`, `C12_after_failure` |
| C14 | `-a + b` is parsed as `a + (-b)`, `not a and b` as `a and (not b)`; `a not b` is accepted | `C14_minus_left`, `C14_not_left`, `C14_violated` |
| C15 | an import that is not followed by a string aborts | `C15_import_aborts` |
| C61 | `var k = a not b` is accepted, and leaves an expression on the parser's stack | `C61_violated` |
| C17 | locals can shadow globals that are declared later | see the note in the manifest |
| C18 | the branches of an `if` share one scope | `C18_violated`, `C18_leaks` |
| C20, C23 | `opt_if_remove` writes to a literal that is shared by all uses of a constant | `C23_violated` |
| C25 | `a not b` leaves two values on the stack | `C25_violated` |
| C30 | text plus array or system call, and a call of `none`, fail assertions | `C30_textless_add_aborts`, `C30_call_none_aborts` |
| C32 | numbers with more than 15 characters are cut when added to text | `C32_long_text_cut` |
| C38 | `wait` with a negative number never ends; `wait(INT_MIN)` overflows | `C38_negative_never_runs` |
| C43 | an array that contains itself makes the collector recurse without end | `C43_cycle_diverges` |
| C44 | sizes near 2^64 wrap around | `C44_huge_size_wraps` |
| C49 | `call_init` runs 8192 instructions at most | `C49_long` |
| C50 | variables without initialiser keep what was in their slot | `C50_violated` |
| C51 | operand and branch tables omit ICALL, NEW_ARY, NEW_FUNC, NEW_SCALL | `C51_*` |
| C54 | a file without directory imports from the root directory | `C54_import_from_bare_file` |
| C58 | a file that imports itself as `./x` is read under ever longer paths; in the model for ever, in reality until the path is too long for the file system and the import fails | `C58_endless` |
| C56 | a built-in called through a variable takes as many values as it likes; a variable whose declaration the optimiser removed has no slot | `C56_violated`, `C56_lost_slot` |
| C62 | a file whose path begins with an earlier path is silently not read; a `main` with parameters reads below the stack | `C62_unread`, `C62_parameters` |
| C63 | `gets` at the end of input uses an uninitialised buffer; a line of 79 characters is followed by an empty one; printing `none` fails an assertion | `C63_gets_end`, `C63_gets_long`, `C63_none` |
| C65 | `video` with a product beyond 31 bits, or negative, is undefined; so is `line` with both sides over 32768; `circle` leaves out the rightmost column, and for radius 0 paints four pixels but not the centre; the end point of a line is not painted | `C65_video_overflow`, `C65_line_overflow`, `C65_circle_lopsided`, `C65_line_end` |
| C66 | `flip` of a picture higher than wide reads and writes out of bounds; a wider one is shown in part | `C66_flip_tall`, `C66_flip_partial` |
| C67 | An error is reported for the line of the next instruction: for `a[5] = 1` the line below, for `(a / 0) + k` the line where the constant `k` is declared | `C67_wrong_line`, `C67_constant_line` |
| C67 | If the next instruction has no line (the jump around an `else`, a folded constant, the end of `@init`), reporting an error fails an assertion | `C67_no_line` |
| C67 | `get_thread_error` has no case for `e_bad_array_object`, which assigning to an element of an integer raises: an assertion fails | `C67_no_name` |
| C69 | `gc` deletes the nodes of array literals and of assignments to members although they are still used; `comp -a` then reads them | `C69_dangling`, `C69_shown_partial` |
| C70 | Output files are named after the first argument even if it is an option (`comp -d x.nano` writes `-d.dis`); a first argument of 1020 characters or more overruns a buffer | `C70_option_first`, `C70_overflow` |
| C75 | The graphical driver runs on for ever when the program is over, exits with status 0 after a runtime error; a sleep across the wrap-around of the clock ends at once; a sleep of one thread ends that of another | `C75_never_ends`, `C75_exit`, `C75_wraps`, `C75_overwritten` |

Further observations made while modelling, without a property of their own: an `ICALL` with a wrong
number of arguments sets an error but still enters the function; `INT_MIN % -1` and `INT_MIN / -1` are
undefined; `call_once` does not look at the result of `new_thread`; `globals_` is not part of the program file;
strings with NUL or of 256 bytes and more do not survive it; registering a host function twice ends
in a null dereference; `const x = none` is always refused; `vm.has_error` is always false; the initialiser of `var b = none` is dropped, so a value an
earlier initialiser gave to `b` stays; function bodies of only blank lines do not parse; the
parser does not clear its expression stack after an error; `thread_error.cpp` and `token.cpp` lack
some names.
