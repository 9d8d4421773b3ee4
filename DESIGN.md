# Formal model of LegacyBasic: design

The subject is the C interpreter in `/repo` (Basic/, Monitor/, Shared/, System/).
The model is Lean 4 under `lean/Verif`.  The properties are in `properties.jsonl`;
`MANIFEST.json` maps each one to exact theorem names.

## Trusted base

* Lean 4.33.0's kernel.
* Axioms: only `propext`, `Classical.choice`, `Quot.sound` (checked with `#print axioms`).
  No `sorry`, `native_decide`, `bv_decide`, no added axioms.
* The reading of the C code.  Every definition in `Verif/Model` cites the file and lines it
  models; nothing is extracted mechanically.  The theorems are about the model.
* Platform assumptions used while reading: Linux build (`STRICMP = strcasecmp`, no INKEY$),
  C locale, 32-bit `int`/`unsigned`, 16-bit `unsigned short`, signed 8-bit `char`,
  IEEE-754 binary64 `double` with round-to-nearest-even, assertions enabled (no `NDEBUG`).

## Conventions of the model

* A C string is `CStr = List Char`.  Characters are bytes; a byte b is `Char.ofNat b`.
* A C function that updates through pointers returns the new value.
* Outcomes are explicit.  `Halt` covers everything that ends the process or has undefined
  behaviour: `exit(EXIT_FAILURE)`, a failed `assert`, out-of-range access, division by zero,
  and `fuel` (model recursion bound hit, proved unreachable).  A BASIC run-time error
  (`run_error`, a longjmp) is a separate outcome that keeps the state at the error point.
* Loops are structural recursion, or recursion on an explicit bound (`fuel`) whose exhaustion
  is its own outcome.
* `malloc` failure, write errors on stdout, and memory leaks are not modelled.
* Numbers: `Dbl` is `nan | pinf | ninf | nzero | fin q` with `q : Rat`; arithmetic computes the
  exact rational result and rounds to binary64 with a definable rounding function.
  `pow, sin, cos, tan, atan, exp, log, sqrt`, the C library generator `rand/srand` and the clock
  are arbitrary functions in an environment record `Env`; theorems hold for all of them.  The only thing assumed of the
  mathematical functions is their type: applied to doubles they give doubles (`pow_double`, `math_double`).

### Modelled

Shared/utils.c string helpers, Shared/hash.c, Shared/stringuniq.c; Basic/token.c, source.c, linemap.c, arrays.c,
bcode.c, symbol.c, lexer.c, parse.c, run.c, init.c (built-in names); Monitor/interactive.c, monitor.c (RENUM, LIST);
System/options.c, lbasic.c (the whole process: arguments, modes, exit status), `print_binst` of Basic/symbol.c.

### Not modelled, or simplified

* Text written to standard error: which error is reported is part of the outcome, its text is not.
* `malloc` failure, write errors, read errors on stdin other than end of file, the depth of the C stack
  (the compiler is recursive), freeing of memory.
* The sign and payload of NaN (`%g` prints "nan"); `fmtG` first rounds a rational that is not a double.
* `(char)` of a double in 128..255 (CHR$) is taken to wrap; `localtime` fields have the ranges of the C standard.
* The print column is a number modulo 2^32, as in C.
* Operating-system commands (`oscli`), the clock and the terminal are opaque.
* The report of memory (`--report-memory`) is an arbitrary text; `--trace-log` writes to standard error only.
* Within a session the switches keywords anywhere, trace BASIC lines, trace FOR are parameters.  `verbose`,
  `strict_*` and the array base are the constants the program uses.
* `Def.source` is only used for messages and is left out.
* The rejection loop in RND is one stuttering step of the machine for each rejected draw.

## Layout

* `Verif/Model/*`  the model, function by function.
* `Verif/Spec/*`   small independent specifications.
* `Verif/Proofs/*` helper lemmas.
* `Verif/Props/*`  the property theorems, each with a concrete instance beside it.

How the proofs about compiled code are layered: `Code` (shape of code) → `Emits`, `EmitsExpr`, `EmitsStmt` (what each
parser function appends) → `Compile` (whole programs) → `Sizes` (stack sizes along a piece of code), `Pieces` (a
program is a sequence of pieces), `Index` (line index) → `Flow`, `FlowStep`, `FlowKeep` (one instruction) →
`FlowState` (all states of a session, by induction on `Spec.State`) → `RunEnds` (whole runs).

General invariants of the machine go through `Proofs/Keeps` (`V.Closed`: a predicate kept by every primitive action
is kept by every instruction) and, for the compiler, `Proofs/ParserKeeps` (`P.Closed`).  `Proofs/StateMoment` carries
properties of compiled code to every moment of every session.

## Where the code and the properties disagree

Each of these is a theorem with a concrete witness (`…_violated`).

* C01/C05: line numbers are taken modulo 2^32; a line number 0 cannot be told from no number.
* C13: DIM with extent 2^32-1 wraps to an array of size 0.
* C28: CHR$ of 128..255 gives a negative character, ASC of it is negative.
* C31/C32: INPUT into an array element leaves its subscripts behind when the input is retried; end of file never ends.
* C35: CONT after an interrupt at the end of the program reads behind the code.
* C36/C37/C38: RENUM makes duplicate numbers, changes only the first number of ON,
  does not see the number of `THEN GOTO n`, changes numbers in comments, and leaves old code in place.
* C40: an interrupt that arrives during an instruction that fails makes CONT repeat the instruction with the stack
  it left; likewise CONT after a typed INPUT uses the wrong place for "redo".  More than 65536 names share identities.
* C41: malformed or too long DATA items end the process; READ of a reserved name fails an assertion.
* C46: a NUL byte in the input hides the rest of the line.
* C51: `10ELSE` with keywords anywhere reads the number with an exponent.
* CLEAR inside a FOR loop: NEXT then updates a variable that reads as 0 (C17 excludes it).

## Testing the theorems

`seeded/LOG.jsonl` has one line for each wrong program tried: an edit to one definition of the model, the claim it
breaks, and the theorems whose proofs then fail.

## Properties: what is modelled and how it is proved

| id | modelled code | method |
|----|---------------|--------|
| C01 | source.c editing functions | refinement to a finite map, induction over edit lists |
| C02 | save/load of source files | round-trip lemma, induction over lines |
| C03 | load_source_file/string, append | invariant of the load loop |
| C04 | LIST | equality with `filter`, induction; listing in pages: the same lines, with the positions of the pauses computed from their indices |
| C05 | interpret/program_line/read_num | decimal evaluation lemma; full statement false at 2^32 (wrap), `_partial` below it |
| C06 | linemap.c, bcode_index | hash chain invariant, refinement to association list |
| C07 | token.c hash table | full-table `decide` lifted by hash congruence lemma |
| C08 | keyword_prefix | prefix-freeness of the table lifted to all texts |
| C09 | lexer.c | equality with a declarative scanner, progress lemma |
| C10 | lexer.c | corollaries of the scanner equality |
| C11 | lex_next_data | same |
| C12 | symbol.c | chain invariant, refinement to a list search; id wrap at 65536 shown |
| C13 | arrays.c | arithmetic; full statement false at 2^32-1 (witness), `_partial` otherwise |
| C14 | arrays.c, element get/set | arithmetic injectivity |
| C15 | arrays.c, auto-dimension | arithmetic, iff statement; DIM and first use without DIM as instructions, in every state of a session; false at 2^32-1 and for three dimensions (witnesses) |
| C16 | stringuniq.c | BST invariant |
| C17 | B_FOR, next | step lemmas, induction on iterations, exactness of integers in binary64 |
| C18 | B_FOR/B_NEXT | invariant over all steps |
| C19 | GOSUB/RETURN | stack lemmas, invariant over histories |
| C20 | ON | case analysis over all values |
| C21 | IF/ELSE code and parser | skip lemmas and parser shape |
| C22 | find_data | refinement to a queue of items; a second queue for a typed line with DATA; the queue of a compiled program is read off its text for programs of the grammar of C52 |
| C23 | call_def/end_def, def_end | the body is evaluated by `Computes` (Spec/Functions) on the machine with the parameter bound; simulation of that evaluation inside the function by induction on the derivation; success, error, halt and refused calls. In a session every call of a made function meets the hypotheses; exact stack height is false for `RND(2^A$)` (`C23_leak`), so the session theorem is `_partial` |
| C24 | same with error | full statement false (`C24_violated`): the parameter is not restored and the call stays open; `C24_partial` says exactly what every failed call leaves, in programs and in typed statements; `C24_direct` without a program |
| C25 | all string-producing ops | invariant over all steps |
| C26 | LEFT$/RIGHT$/MID$/LEN | algebraic laws |
| C27 | compare_strings | order laws |
| C28 | ASC/CHR$ | arithmetic; false for 128..255, witness; `_partial` below 128 |
| C29 | pop_logic, AND/OR/NOT | bit-level equality over BitVec 32 |
| C30 | PRINT ops | invariant over op sequences |
| C31 | INPUT ops | step lemmas; false for subscripted items (stack leak), witness; `_partial` for scalars |
| C32 | INPUT at EOF | false: non-termination proved |
| C33 | convert | equality with declarative acceptance |
| C34 | RUN | a relation between two machines that agree on a program's symbols, kept by every instruction (Proofs/Sim*.lean); RUN establishes it from any two states of a session with the same program (Proofs/Rooted.lean, SameRun.lean); false for the buffer of the last INPUT line, witness; `_partial` with equal buffers, no RENUM, at most 65536 names |
| C35 | STOP/CONT | step lemma; out-of-range read witness on break at program end |
| C36 | renumber, first pass | false (duplicates), witness; `_partial` with condition |
| C37 | renumber, second pass | false (ON lists, THEN GOTO, comments), witnesses; `_partial`: the new text is related to the old one by `Retargeted` (Spec/Renumber), by induction over the tokens of the line, using that reading a token depends only on what is left of the line (Proofs/Shift) |
| C38 | edit/compile protocol | invariant over commands; false for RENUM, witness |
| C39 | lexer, expression parser, VM | grammar (`Phrase`), spelling (`Spells`) and meaning (`Expr.value`) of expressions are specified apart from the code (Spec/Expressions). Induction on the grammar: the parser accepts every phrase and appends its postfix code; induction on the code: it leaves the value or stops with its error; together: typing PRINT and any such expression prints its value. An array element makes its array if it is not there, RND and TIME$ change the generator and the clock, so evaluating is a function of a `Store` and gives a new one; `C39_steady` says that nothing changes otherwise. `_partial`: more than two subscripts are not in the grammar, and calls of user functions are only treated in running programs (C52); nothing is said about a subscript 4294967295 (`C15_dim_wraps`) and a generator that never gives a number below 1 |
| C40 | parser output shape + VM | static well-formedness of emitted code, invariant |
| C41 | parser + lexer | fuel sufficiency via progress measure |
| C42 | whole | from C40's structure of the code and what symbols hold (C44): every instruction completes or reports an error unless it is one of the misuses of Spec/Crash.lean; witnesses for each misuse; lifted to whole runs; that tracing finds the line it shows is an invariant of its own (Proofs/Lines, LineState) |
| C43 | run_immediate | false (stack residue), witness; `_partial`: a relation between a machine and the same machine with values beneath its stacks, kept by every instruction (Proofs/Over.lean, OverRun.lean), gives that a typed statement, and any sequence of them, does the same as with emptied stacks unless it reports a full stack |
| C44 | symbol.c clearing | invariant: in every state of a session a symbol holds only what suits its kind, and only while it is defined (`HeldSym`, Proofs/Held*.lean); then direct computation |
| C45 | source_replace | splice equality |
| C46 | find_command, get_line, command | table lemma, stream lemma; case analysis of the commands for BYE |
| C47 | scalar get/set | store laws |
| C48 | B_RND | rounding monotonicity |
| C49 | pop_unsigned/pop_index | case analysis over Dbl |
| C50 | push etc. | invariant over all steps |
| C51 | lexer.c, numbers | equality with the declarative form of a literal |
| C52 | lexer, parser, line index, VM as a whole | `Spec/Semantics.lean` gives, apart from the code, the grammar of lines (`Clauses`, `Lines`) and the meaning of statements (`step`). Induction on the grammar: every such program compiles to the expected code (Proofs/Sentences, Clauses, Listed). A relation between situations of the program and states of the machine (`Matches`, Proofs/Image) is kept by every statement (Simulate, Perform, PrintItems, Actions, Defines, Elements, Asking, Steps), with a measure showing that the machine moves on; RUN establishes it (Ready). For the command RUN in any session without RENUM, also when the program has been run before, the run is compared with that of the same lines freshly typed, by the simulation of C34 (`C52_session_partial`, Props/RunCommand): the text printed and the input read from the prompt on are those of the statements. CONT (`C52_cont_partial`, `C52_cont_forever_partial`, Props/Continue): after RUN, and CONT any number of times, each ended with STOP, `Waits` (Proofs/Continue) says that the machine keeps the relation and stands at the STOP, so that the relation holds again after it; as lines typed in a session this is `C52_stop_command_partial` and `C52_cont_command_partial` (Props/ContinueCommand); text printed and input read between the STOP and CONT do not matter, but a program or variables changed meanwhile by commands or typed statements are not covered. After an interrupt at the beginning of a line CONT goes on there (`C52_break_partial`, Props/ContinueBreak); within a line it leaves out a STOP that was about to be performed (`C52_break_skips`; the comment at Basic/run.c:377 says that effects are not guaranteed then). Included are elements of arrays in expressions, assigned to, READ and INPUT, DIM, RND, TIME$, DATA, RESTORE, INPUT (with its repetition after a refused line), LINE INPUT, ON, CLS, CLEAR and RANDOMIZE; the DATA position, the unread input, the input line, the random seed, the clock and the functions made with DEF are part of the situation. Functions (`Spec/UserFns.lean`, Proofs/Called, Reaches, Defines): the body is evaluated while the parameter has the value of the argument, which is then undone; an error in the body leaves the parameter as it is; functions do not exist before their DEF statement is performed and after CLEAR, and cannot be called within functions. `_partial`: nothing is said after something that is not a number is typed for an element of an array of numbers (its subscripts stay on the stack, `C31_violated`); no name is both that of a function and of an array that is assigned to; nothing is said after CLEAR inside a FOR loop (`Ending.unknown`); expressions fit the stacks; no tracing; keywords separated, or anywhere if so asked (`SpellsAs`) |
| C53 | arithmetic of run.c on the model of `double` (Model/Num) | `Spec/Doubles.lean` says what rounding is (nearest, ties to even, overflow) without computing it, and gives the tables of IEEE 754 for infinities, NaN and zeros; the computed results meet it and it determines them (Proofs/Doubles, Proofs/Arith). The hardware is trusted to be IEEE 754 binary64 in round-to-nearest mode |
| C54 | `printf("%g")` of run.c (Model/Num: `fmtDbl`) | `Spec/Digits.lean` says which text is right without computing it: the nearest number with six significant digits, and the two layouts; the computed text meets it, it is the only one that does, and it is read back as the rounded number (Proofs/Digits). The C library is trusted to print correctly rounded digits |
| C55 | all of the VM, compiler and lexer | invariant over every moment of every session (`Proofs/AllDoubles`): numbers enter only by literals, DATA and input (rounded), and operations keep the invariant; C53 and C54 then hold in every session without an assumption on the operands |
| C56 | options.c `parse_options`, lbasic.c `main` | `Spec/CommandLine.lean` says what arguments mean (spellings, files, last mode) without following the loop; induction on the arguments |
| C57 | lbasic.c `main`, `process_file`, loading, compiling and running | C56 and C03 reduce it to `C52_ends_partial` for a fresh machine; with tracing, `C61_partial` relates the run to the one without (Props/TracedRun); with `--keywords-anywhere` the lines are read by `SpellsAs true` (Props/Anywhere has an example without blanks); `_partial` for the reasons given at C52 |
| C58 | lbasic.c `list_file`, `list_names`, `process_file`; symbol.c `print_binst` | C03 and C16; for `--code` the invariants of C40 on compiled code (every symbol is in the table, lines in order); for `--list-names` the relation `Spells` between text and tokens of C39. Disagreement found: what `--list` shows is refused by LOAD if a number is below 10000. `--list-names` also shows the words of unquoted DATA items |
| C59 | lbasic.c `main`, interactive.c `interact`, `get_line`, `interpret`, `command`; loading, saving and running | `Spec/Dialogue.lean` says line by line what a dialogue prints, over an abstract state that holds only the program, the files, the generator, the clock, the last line read and whether a program was stopped; induction over the dialogue with an invariant that relates it to the session (`AtDesk`), one lemma per kind of line; a run is `session_run`, the theorem behind `C52_session_partial`; `_partial` because RENUM with numbers or alone, CONT after a STOP and statements without a number are not among the lines, COMPILE is only for programs of the language the semantics covers, and for the reasons given at C52 |
| C60 | lbasic.c `main`, `process_file`; interactive.c `command` for LOAD and RUN; `vm_load_source`, `run_program` | the simulation between two machines of C34, in which what was printed before may differ; both sides are states of a session with the same program, one freshly started (Props/LoadRun); `_partial`: no RENUM before, empty buffer of the last INPUT line, at most 65536 names |
| C61 | lbasic.c `main`, `process_file`; run.c as a whole, with `dump_for`, `dump_for_stack` | the simulation of C34 with a first machine that traces more (`Spec/Tracing.lean` says what may be put into the output); tracing cannot fail because the current line and the variables of the open loops exist (Proofs/LineState, Sim); `_partial`: at most 65536 names, and for two sessions in the middle of their life the conditions of C34 |
| C62 | lexer.c for both ways of recognising keywords, and all that C57 covers | a text whose names contain no keyword has the same tokens either way (`spells_anywhere`, Props/Anywhere); then C57 twice; `_partial` for the reasons given at C52 |
