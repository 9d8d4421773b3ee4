{"id": "C01", "title": "Editing keeps the stored program an ordered map", "statement": "After any sequence of typed program lines (entering, replacing, deleting) and NEW, the stored program lists in strictly ascending line-number order, holds at most one line per number, and each number shows exactly the text most recently entered for it (or nothing if it was last deleted).", "quantifier": "all finite sequences of edits, all line numbers, all texts, starting from any stored program with strictly increasing numbers", "why_tests_cant": "The number of edit histories is unbounded; tests exercise a handful of insertions.", "anchors": ["Basic/source.c: enter_source_line, append, spread, delete_source_line, find_source_linenum, clear_source", "Basic/run.c: vm_enter_source_line, vm_delete_source_line, vm_new_program"]}
{"id": "C02", "title": "SAVE then LOAD gives back the same program", "statement": "If a stored program has strictly increasing positive line numbers and each line, written as number, space, text, newline, fits the loader's 255-character limit, then SAVE followed by LOAD of the same file succeeds and yields exactly the same numbers and texts (including indentation and empty texts).", "quantifier": "all programs meeting the stated length and ordering conditions, all texts without newline or NUL", "why_tests_cant": "Round trip over all texts, lengths and line counts cannot be enumerated; boundaries (254/255 characters, leading digits or spaces in the text) are easily missed.", "anchors": ["Basic/source.c: save_source_file, load_source_file, parse_line_number, append"]}
{"id": "C03", "title": "LOAD accepts only well-formed, ascending programs", "statement": "For any file contents, LOAD either terminates with an error or produces a program whose line numbers are positive and strictly ascending; a file with a missing line number, number zero, a repeated or decreasing number, an empty line, or a line longer than the buffer is never accepted.", "quantifier": "all file contents (all byte strings)", "why_tests_cant": "Input space is all files.", "anchors": ["Basic/source.c: load_source_file, load_source_string, get_line, parse_line_number, append"]}
{"id": "C04", "title": "LIST prints exactly the requested range", "statement": "LIST s-e prints exactly those stored lines whose number lies between s and e inclusive, each once, in ascending order, as number, space and text; an omitted start or end is unbounded. With P after the numbers (LIST P) the same lines are shown, but after the 23rd and every 24th line that follows the listing waits for Enter, except after the last line of the program.", "quantifier": "all ascending stored programs, all ranges", "why_tests_cant": "Unbounded program sizes and ranges.", "anchors": ["Monitor/interactive.c: list, get_list_numbers"]}
{"id": "C05", "title": "Typed digits denote their decimal value", "statement": "A typed command line starting with digits edits the program line with exactly that decimal number: a number alone deletes that line, anything else enters the remaining text (with exactly one separating space removed) under that number.", "quantifier": "all command lines that begin with a digit", "why_tests_cant": "All digit strings and texts; wrap-around occurs only for values of 2^32 and above, which no test reaches.", "anchors": ["Monitor/interactive.c: interpret, program_line, read_num, skip_space"]}
{"id": "C06", "title": "GOTO reaches exactly the named line", "statement": "For every compiled program with distinct line numbers, transferring to line number n continues at the first instruction of the line numbered n; if no line has that number the run stops with 'Line not found'.", "quantifier": "all compiled programs, all line numbers", "why_tests_cant": "Hash-table collisions depend on the set of line numbers; no finite set of programs covers them.", "anchors": ["Basic/linemap.c: new_line_map, insert_line_mapping, lookup_line_mapping", "Basic/bcode.c: bcode_index, line_count", "Basic/run.c: find_basic_line, go_to_basic_line"]}
{"id": "C07", "title": "Keyword recognition is exact and case-insensitive", "statement": "A name is treated as a keyword iff it equals, ignoring letter case, one of the 29 keywords, and then as exactly that keyword; every other name is an identifier. The hashed lookup agrees with a plain search of the table.", "quantifier": "all names (all strings)", "why_tests_cant": "All strings; a hash collision or case bug shows only on particular names.", "anchors": ["Basic/token.c: keywords, init_keywords, identifier_token", "Shared/hash.c: hashpjw_upper"]}
{"id": "C08", "title": "Keyword-prefix mode is unambiguous", "statement": "In the mode that recognises keywords run together with other text, at any text position at most one keyword is a prefix, so which keyword is recognised does not depend on the order of the keyword table.", "quantifier": "all texts", "why_tests_cant": "All strings and all table permutations.", "anchors": ["Basic/token.c: keyword_prefix", "Basic/lexer.c: lex_next"]}
{"id": "C09", "title": "Tokenising terminates, stays in bounds and always advances", "statement": "For every source text, reading the next token never writes outside the 128-byte word buffer or reads past the end of the text, never reports an internal error, and moves the read position strictly forward until the end-of-line token, which is then returned forever.", "quantifier": "all texts, all read positions, both keyword modes", "why_tests_cant": "Arbitrary texts, in particular all lengths around the buffer size.", "anchors": ["Basic/lexer.c: lex_next, lex_char_pos, lex_char, lex_peek, pushback, append, lex_next_data"]}
{"id": "C10", "title": "String literals and names denote their own characters", "statement": "A quoted literal of at most 127 characters yields a string token with exactly the characters between the quotes; a name yields exactly its letters, digits and optional final $, regardless of what follows.", "quantifier": "all literal contents, all names, all following text", "why_tests_cant": "All strings and all continuations.", "anchors": ["Basic/lexer.c: lex_next"]}
{"id": "C11", "title": "DATA items keep their text", "statement": "An unquoted DATA item yields the characters up to the next comma, colon, quote or end of line with surrounding blanks removed; a quoted item yields exactly the characters between the quotes, commas and colons included.", "quantifier": "all DATA items up to 127 characters, all continuations", "why_tests_cant": "All strings.", "anchors": ["Basic/lexer.c: lex_next_data", "Basic/parse.c: data_statement"]}
{"id": "C12", "title": "Names are case-insensitive and scalars, arrays and functions have separate storage", "statement": "Looking up a name in a table built by any sequence of insertions finds the most recent entry whose name is equal ignoring case and whose scalar/parenthesised class matches, independently of hash collisions; a scalar and an array of the same name are different entries; different names never share an entry while fewer than 65536 names exist.", "quantifier": "all insertion sequences, all names", "why_tests_cant": "Collisions depend on the set of names; unbounded histories.", "anchors": ["Basic/symbol.c: sym_insert, sym_lookup, match_paren, symbol, sym_make_unknown_array", "Shared/hash.c: hashpjw_upper"]}
{"id": "C13", "title": "Array element access stays inside the array", "statement": "For every dimensioning the interpreter accepts and every subscript list it accepts for that array, the element accessed lies inside the array's storage.", "quantifier": "all array bases, dimension counts, declared maxima and subscripts (all unsigned values)", "why_tests_cant": "The failing point (maximum 4294967295) is one value in 2^32 per dimension.", "anchors": ["Basic/arrays.c: compute_total_elements, init_array_size, compute_element_offset", "Basic/arrays.h: struct array_size"]}
{"id": "C14", "title": "Different subscripts are different elements", "statement": "In every array accepted by DIM, two different valid subscript lists address different elements; storing a value at one subscript list and reading it back returns that value, and reading any other subscript list returns what it held before.", "quantifier": "all accepted arrays, all pairs of subscript lists, all values", "why_tests_cant": "Quadratically many subscript pairs for every array shape.", "anchors": ["Basic/arrays.c: compute_element_offset", "Basic/run.c: get_numeric_element, set_numeric_element, get_string_element, set_string_element"]}
{"id": "C15", "title": "DIM accepts exactly the representable shapes", "statement": "DIM succeeds iff there are one or two dimensions, no maximum is below the base, and the product of the extents is at most 65536; an array used without DIM behaves as if dimensioned with maximum 10 or the first subscript used, whichever is larger, in each dimension; new elements are zero or empty.", "quantifier": "all bases and maxima", "why_tests_cant": "Boundary arithmetic over the whole 32-bit range.", "anchors": ["Basic/arrays.c: compute_total_elements, init_array_size, new_numeric_array, new_string_array", "Basic/run.c: dimension_numeric_auto, dimension_string_auto, dimension_numeric, dimension_string"]}
{"id": "C16", "title": "Name listings are sorted and duplicate-free", "statement": "After inserting any sequence of names, the listing contains, in strictly ascending case-insensitive order, one entry for each class of names equal ignoring case, namely the first spelling inserted.", "quantifier": "all sequences of names", "why_tests_cant": "Unbounded tree shapes.", "anchors": ["Shared/stringuniq.c: insert_node, traverse_tree, insert_unique_string, traverse_unique_strings"]}
{"id": "C17", "title": "FOR/NEXT iterates start, start+step, ... up to the limit", "statement": "A FOR loop sets its variable to the start value and always runs its body once; each NEXT adds the step, and either continues right after the FOR with the new value when it has not passed the limit in the direction of the step, or falls through leaving the variable at its last in-range value and closing the loop. For integer start, limit and positive integer step the body runs exactly floor((limit-start)/step)+1 times (at least once).", "quantifier": "all start, limit and step values (all integers for the iteration count)", "why_tests_cant": "Number of iterations is unbounded.", "anchors": ["Basic/run.c: execute (B_FOR, B_NEXT_VAR, B_NEXT_IMP), next, find_for"]}
{"id": "C18", "title": "Loop bookkeeping: one entry per variable, at most eight loops", "statement": "In every run, at most eight loops are open, no variable controls two open loops, restarting a loop on a variable replaces its old loop and makes it innermost, NEXT without a variable applies to the innermost loop, and NEXT with a variable applies to that variable's loop.", "quantifier": "all programs, all executions", "why_tests_cant": "Unbounded executions and jump patterns into and out of loops.", "anchors": ["Basic/run.c: execute (B_FOR, B_NEXT_VAR, B_NEXT_IMP), find_for, next"]}
{"id": "C19", "title": "GOSUB and RETURN nest properly", "statement": "RETURN continues immediately after the most recently executed GOSUB (or ON..GOSUB) not yet returned from; a ninth nested GOSUB and a RETURN without GOSUB stop with an error and nothing else is lost.", "quantifier": "all programs, all call/return sequences", "why_tests_cant": "Unbounded call histories.", "anchors": ["Basic/run.c: push_return, pop_return, execute (B_GOSUB, B_RETURN, B_ON_GOSUB)"]}
{"id": "C20", "title": "ON selects the n-th line or falls through", "statement": "ON x GOTO/GOSUB l1,...,lk with integer x between 1 and k transfers to lx; with integer x outside 1..k execution continues at the next statement; with a non-integer x the run stops with an error. No other outcome is possible.", "quantifier": "all values x, all lists of target lines", "why_tests_cant": "All numbers and all list lengths.", "anchors": ["Basic/run.c: execute (B_ON_GOTO, B_ON_GOSUB)", "Basic/parse.c: on_statement"]}
{"id": "C21", "title": "IF executes exactly one branch", "statement": "For IF c THEN s1 ELSE s2 with c nonzero, s1 is executed and s2 is skipped to the end of the line; with c zero, s1 is skipped and s2 is executed; IF without ELSE and zero condition skips the rest of the line. An ELSE belongs to the nearest preceding unmatched IF.", "quantifier": "all conditions and branch contents, all nesting on a line", "why_tests_cant": "Unbounded nesting and branch lengths.", "anchors": ["Basic/run.c: execute (B_IF_THEN, B_IF_ELSE, B_ELSE, B_GOTRUE)", "Basic/parse.c: if_statement, else_clause, complete_statement"]}
{"id": "C22", "title": "READ consumes DATA items in program order", "statement": "Successive READ items in a run receive the program's DATA items in textual order, each exactly once; RESTORE starts again at the first, RESTORE n at the first item at or after line n; reading past the last stops with 'out of DATA'. READ never changes the items. A line typed without a number that has DATA itself reads its own items and leaves those of the program alone.", "quantifier": "all programs, all interleavings of READ and RESTORE", "why_tests_cant": "Unbounded histories.", "anchors": ["Basic/run.c: find_data, execute (B_READ_NUM, B_READ_STR, B_RESTORE, B_RESTORE_LINE)", "Basic/bcode.c: bcode_next"]}
{"id": "C23", "title": "A user-defined function call is a pure substitution", "statement": "Calling a DEF function with argument v leaves on the stack the value of its body evaluated with the parameter equal to v and every other variable unchanged, restores the parameter variable (including whether it was defined), and continues right after the call.", "quantifier": "all function bodies, arguments and states", "why_tests_cant": "Unbounded bodies and states.", "anchors": ["Basic/run.c: call_def, end_def, execute (B_DEF, B_PARAM, B_END_DEF)", "Basic/bcode.c: bcode_copy_def, def_end"]}
{"id": "C24", "title": "A failed function call leaves the session usable", "statement": "If a run-time error stops a program inside a user-defined function, the parameter variable gets its old value back and functions can be called again by the next statement typed.", "quantifier": "all programs, all error points inside a function body", "why_tests_cant": "Error points are unbounded; the effect shows only in the following command.", "anchors": ["Basic/run.c: call_def, run_error, run, run_immediate, immediate_state"]}
{"id": "C25", "title": "No string value exceeds 255 characters", "statement": "In every run every string variable, array element and stacked string has at most 255 characters; a concatenation whose result would be longer stops with an error and nothing is truncated.", "quantifier": "all programs, inputs and executions", "why_tests_cant": "Invariant over unbounded executions.", "anchors": ["Basic/run.c: execute (B_CONCAT, B_LEFT, B_MID3, B_RIGHT, B_INPUT_STR, B_INPUT_LINE, B_READ_STR), push_str", "Basic/lexer.h: MAX_WORD"]}
{"id": "C26", "title": "LEFT$, RIGHT$, MID$ and LEN agree with list slicing", "statement": "LEFT$(s,n) is the first min(n,len) characters, RIGHT$(s,n) the last min(n,len), MID$(s,p,n) the at most n characters starting at position p when 1<=p<=len and an error otherwise; LEFT$(s,n)+RIGHT$(s,len-n)=s for n<=len.", "quantifier": "all strings up to 255 characters, all lengths and positions", "why_tests_cant": "All strings and positions including 0, len and values up to 4294967295.", "anchors": ["Basic/run.c: execute (B_LEFT, B_RIGHT, B_MID3, B_LEN), pop_unsigned"]}
{"id": "C27", "title": "String comparison is a total order", "statement": "For any two strings exactly one of <, =, > holds; <= and >= and <> are the corresponding unions and complement; = holds iff the strings have the same characters; the order is transitive and a proper prefix is smaller.", "quantifier": "all pairs and triples of strings", "why_tests_cant": "All strings.", "anchors": ["Basic/run.c: compare_strings, execute (B_EQ_STR .. B_GE_STR)"]}
{"id": "C28", "title": "ASC inverts CHR$", "statement": "For every character code n from 1 to 255 that CHR$ accepts, ASC(CHR$(n)) = n; CHR$ rejects everything that is not an integer from 0 to 255.", "quantifier": "all numbers n", "why_tests_cant": "All numeric values; codes 128..255 depend on the signedness of char.", "anchors": ["Basic/run.c: execute (B_ASC, B_CHR)"]}
{"id": "C29", "title": "AND, OR, NOT are 32-bit two's-complement bit operations", "statement": "For integer operands in the range -2^31..2^31-1 the results are the bitwise and/or/complement in two's complement; any other operand (fraction, out of range, NaN) stops with an error; comparisons yield exactly -1 (true) or 0 (false), so NOT, AND, OR of comparisons are the logical connectives.", "quantifier": "all operand values", "why_tests_cant": "2^64 operand pairs.", "anchors": ["Basic/run.c: pop_logic, push_logic, execute (B_AND, B_OR, B_NOT, B_EQ_NUM .. B_GE_NUM)"]}
{"id": "C30", "title": "Print position is tracked exactly", "statement": "Throughout any sequence of PRINT operations the interpreter's column equals one plus the number of characters printed since the last newline; TAB(n) with n>=1 leaves the cursor in column n using at most one newline; a comma moves to the next column congruent to 1 modulo 8 using one to eight spaces; SPC(n) prints n spaces.", "quantifier": "all sequences of PRINT items starting at a line start", "why_tests_cant": "Unbounded output histories.", "anchors": ["Basic/run.c: execute (B_PRINT_LN, B_PRINT_SPC, B_PRINT_TAB, B_PRINT_COMMA, B_PRINT_NUM, B_PRINT_STR, B_CLS)"]}
{"id": "C31", "title": "INPUT repeats until the line is valid and has no other effect", "statement": "When a typed line is invalid for the items of INPUT, the statement is asked again and, apart from items already assigned, the program state is as it was when INPUT started, however often this happens.", "quantifier": "all input line sequences, all INPUT statements", "why_tests_cant": "The failure needs many consecutive invalid lines.", "anchors": ["Basic/run.c: execute (B_INPUT_BUF, B_INPUT_SEP, B_INPUT_NUM, B_INPUT_STR, B_INPUT_END)", "Basic/parse.c: input_statement"]}
{"id": "C32", "title": "INPUT at end of input terminates", "statement": "When standard input is exhausted, executing INPUT ends the run (or reports an error) after finitely many steps.", "quantifier": "all programs and states in which input is exhausted", "why_tests_cant": "Non-termination cannot be observed by a finite test.", "anchors": ["Basic/run.c: execute (B_INPUT_BUF, B_INPUT_NUM)"]}
{"id": "C33", "title": "Numeric text is accepted exactly when all of it is a number", "statement": "VAL, READ and INPUT of a number accept a text iff, blanks aside, it starts with a digit, point or sign and the whole of it (for INPUT: up to a comma or line end) is consumed as a number; otherwise VAL and READ stop with an error and assign nothing.", "quantifier": "all texts", "why_tests_cant": "All strings.", "anchors": ["Basic/run.c: convert, execute (B_VAL, B_READ_NUM, B_INPUT_NUM)"]}
{"id": "C34", "title": "RUN does not depend on earlier session state", "statement": "Running a compiled program produces the same outcome whatever variables, arrays, functions, open loops, pending returns, DATA position and print column earlier commands left behind.", "quantifier": "all pairs of session states with the same stored program, input and random state", "why_tests_cant": "Relational property over all histories.", "anchors": ["Monitor/interactive.c: command (CMD_RUN)", "Basic/run.c: run_program, reset_control_state, vm_clear_values", "Basic/symbol.c: clear_symbol_table_values, undefine_value"]}
{"id": "C35", "title": "CONT resumes right after STOP", "statement": "After STOP in a program, CONT with nothing in between continues with the statement following STOP with all variables, loops, returns and DATA position unchanged; when the stored program has been edited since, CONT is refused; CONT never reads outside the program.", "quantifier": "all programs and STOP points, all edit histories, all interrupt points", "why_tests_cant": "All states and interrupt timings.", "anchors": ["Basic/run.c: vm_continue, run, stored_program_changed, ensure_program_compiled, execute (B_STOP)"]}
{"id": "C36", "title": "RENUM keeps the program ascending", "statement": "After a successful RENUM the program is still in strictly ascending line-number order with the same number of lines, lines below the starting number keep their numbers and the others are numbered new, new+inc, ...", "quantifier": "all programs and RENUM arguments", "why_tests_cant": "All argument triples; duplicates arise only at exact boundaries.", "anchors": ["Monitor/interactive.c: renumber, get_renum_numbers", "Basic/source.c: set_source_linenum"]}
{"id": "C37", "title": "RENUM preserves every line reference", "statement": "After RENUM every line-number reference in GOTO, GOSUB, THEN, ELSE, RESTORE and ON..GOTO/GOSUB lists denotes the same program line as before, and no other text changes.", "quantifier": "all programs and RENUM arguments", "why_tests_cant": "All program texts.", "anchors": ["Monitor/interactive.c: renumber, takes_line_number", "Basic/source.c: source_replace", "Basic/lexer.c: lex_next, lex_refresh"]}
{"id": "C38", "title": "Every change to the stored program takes effect at the next statement", "statement": "After any command that changes the stored program's lines (entering, deleting, NEW, LOAD, RENUM), the next executed statement uses code compiled from the current lines.", "quantifier": "all command sequences", "why_tests_cant": "Unbounded histories.", "anchors": ["Basic/run.c: stored_program_changed, ensure_program_compiled, run_immediate, run_program", "Monitor/interactive.c: renumber"]}
{"id": "C39", "title": "Expressions follow the documented precedence and associativity", "statement": "Compiling and executing the text of any expression yields the value given by the grammar: ^ right-associative and tightest, then unary minus, * and /, + and - (left-associative), relational operators (non-associative), NOT, AND, OR; parentheses override; operands and arguments are evaluated left to right; the built-in functions of numbers and strings give the values that a table of their meanings says; elements of arrays (made when they are first used), RND and TIME$ may occur anywhere, and change nothing but what they have to.", "quantifier": "all expression trees, all variable values", "why_tests_cant": "Unbounded expression trees.", "anchors": ["Basic/parse.c: OR_expression .. primary_expression", "Basic/run.c: execute"]}
{"id": "C40", "title": "Compiled programs never underflow or run into malformed code", "statement": "For every source text that compiles, no execution ever reports an empty numeric or string stack, an unknown opcode, a missing ON line, or runs into a function parameter or function end.", "quantifier": "all programs that compile, all inputs, all executions", "why_tests_cant": "Unbounded programs and executions.", "anchors": ["Basic/parse.c: all statement and expression functions", "Basic/run.c: execute, push, pop, pop_str, call_def, end_def"]}
{"id": "C41", "title": "Compilation terminates on every text", "statement": "For every program text, compilation ends with either compiled code or one reported error, after a number of steps bounded by the text length.", "quantifier": "all program texts, both keyword modes", "why_tests_cant": "All strings; recursion depth is unbounded.", "anchors": ["Basic/parse.c: parse_source, parse_line, expression", "Basic/lexer.c: lex_next"]}
{"id": "C42", "title": "Accepted statements never crash the interpreter", "statement": "Every statement that compiles can be executed with the only outcomes being normal completion or a reported run-time error: no failed assertion, out-of-range memory access or other undefined behaviour.", "quantifier": "all statements that compile, all states", "why_tests_cant": "All statements; the crash cases (three subscripts, assignment to a built-in name, extent 2^32) are isolated.", "anchors": ["Basic/parse.c: identifier, assignment, dim_array, input_item, read_item", "Basic/run.c: pop_indexes, set_numeric_simple, set_string_simple"]}
{"id": "C43", "title": "A run-time error leaves no residue for the next command", "statement": "After a run-time error in a statement typed at the prompt, the next statement behaves as if the erroneous one had only had the effects it completed: in particular any number of erroneous statements does not exhaust the evaluation stacks.", "quantifier": "all sequences of typed statements", "why_tests_cant": "The failure needs many erroneous statements in one session.", "anchors": ["Basic/run.c: run_error, run_immediate, immediate_state, reset_control_state"]}
{"id": "C44", "title": "CLEAR and NEW forget values", "statement": "After CLEAR (or RUN) every scalar reads 0 or the empty string, every array is undimensioned and every user function undefined, while names used by compiled code stay valid; after NEW no line and no name is left.", "quantifier": "all symbol tables", "why_tests_cant": "All table contents.", "anchors": ["Basic/symbol.c: clear_symbol_table_values, clear_symbol_table_names, undefine_value", "Basic/run.c: vm_clear_values, vm_clear_names, execute (B_CLEAR)"]}
{"id": "C45", "title": "Replacing text in a line touches only the replaced span", "statement": "Replacing text at a position succeeds iff the line has that text there, and the result is exactly the prefix, the new text and the suffix; other lines are untouched; on failure nothing changes.", "quantifier": "all programs, positions and replacement texts", "why_tests_cant": "All strings and positions.", "anchors": ["Basic/source.c: source_replace"]}
{"id": "C46", "title": "Commands are recognised exactly", "statement": "A word at the start of a typed line is a command iff it equals one of the command names ignoring case as a whole word; every other line is executed as a statement; line input never executes part of an over-long line. BYE alone on its line ends the session, and no other line does.", "quantifier": "all typed lines, all input streams", "why_tests_cant": "All strings.", "anchors": ["Monitor/interactive.c: find_command, immediate, interpret, get_line, line_complete"]}
{"id": "C47", "title": "Variables hold the last value assigned", "statement": "Reading a scalar returns the value of the most recent assignment (LET, FOR, READ, INPUT) to that scalar, or 0/empty if none since RUN or CLEAR; assigning one variable never changes another.", "quantifier": "all sequences of assignments and reads", "why_tests_cant": "Unbounded histories.", "anchors": ["Basic/run.c: get_numeric_simple, set_numeric_simple, get_string_simple, set_string_simple"]}
{"id": "C48", "title": "RND lies in [0,1)", "statement": "Every value produced by RND is at least 0 and less than 1, whatever the C library generator returns, and RND returns as soon as the generator yields a value other than its maximum.", "quantifier": "all generator outputs and states", "why_tests_cant": "All generator sequences.", "anchors": ["Basic/run.c: execute (B_RND)"]}
{"id": "C49", "title": "Unsigned conversion is exact or refused", "statement": "Where a count, position or subscript is required, a numeric value is used unchanged iff it is an integer from 0 to 4294967295; every other value, including NaN and infinities, stops with an error.", "quantifier": "all numeric values", "why_tests_cant": "All doubles.", "anchors": ["Basic/run.c: pop_unsigned, pop_index, pop_indexes"]}
{"id": "C50", "title": "Evaluation depth is limited without corruption", "statement": "The numeric stack never holds more than 16 values, the string stack never more than 8, the loop stack and return stack never more than 8: an operation that would exceed a limit stops with the corresponding error and leaves the stack contents intact.", "quantifier": "all programs, all executions", "why_tests_cant": "Invariant over unbounded executions.", "anchors": ["Basic/run.c: push, push_str, push_return, execute (B_FOR)"]}
{"id": "C51", "title": "Numbers in a program denote the nearest double", "statement": "A number of at most 127 characters written in a program line, with optional decimal point and exponent, denotes the double nearest to its decimal value, and ends where the next token begins, also when keywords are recognised without spaces around them.", "quantifier": "all numeric literals, all continuations, both keyword modes", "why_tests_cant": "All digit sequences and all continuations; the interaction of the exponent letter with keywords.", "anchors": ["Basic/lexer.c: lex_next, digits, decimal point and exponent scanning"]}
{"id": "C52", "title": "RUN does what the statements of the program mean", "statement": "Running a stored program has the effect of performing its statements one after the other, as described by a statement-level semantics of assignments to variables and elements of arrays, DIM, PRINT, GOTO, GOSUB, RETURN, IF/THEN/ELSE, FOR, NEXT, ON, DATA, READ, RESTORE, INPUT, LINE INPUT, CLS, CLEAR, RANDOMIZE, DEF, END and STOP and of calls of the functions made with DEF: the run ends if and only if the statements come to an end, in the same way (normally, by STOP, with the same error), with the same values of all variables and elements of arrays, the same state of the random number generator, the same part of the input read and the same printed text; every intermediate situation is passed through as well; and nothing undefined happens. CONT after STOP goes on in the same sense with the statement after the STOP, with the variables, loops, subroutines, DATA position and column as they were. CONT after an interrupt at the beginning of a line goes on with that line.", "quantifier": "all programs written with these statements, all values, all run lengths including endless runs", "why_tests_cant": "Unboundedly many programs, nestings, jumps and run lengths; the claim relates the lexer, the compiler, the line index and the virtual machine as a whole to the meaning of the text.", "anchors": ["Basic/parse.c: parse_source, statement", "Basic/run.c: ensure_program_compiled, run_program, run, execute", "Basic/bcode.c: bcode_index", "Basic/run.c: vm_continue"]}
{"id": "C53", "title": "Arithmetic gives the nearest double", "statement": "The results of +, -, * and / on numbers are the exact results rounded to the nearest double, of two equally near ones to that with an even last bit, to an infinity if they are too large; infinities, NaN and signed zeros follow IEEE 754; comparisons treat the two zeros as equal and NaN as unordered. Numbers written in a program, read from DATA or typed in are rounded in the same way.", "quantifier": "all pairs of doubles, all exact values", "why_tests_cant": "2^128 pairs of operands; rounding boundaries and special values.", "anchors": ["Basic/run.c: execute (B_NEG, B_ADD, B_SUB, B_MUL, B_DIV, B_EQ_NUM .. B_GE_NUM)", "Basic/lexer.c: strtod", "Basic/run.c: convert"]}
{"id": "C54", "title": "Numbers are written with six significant digits", "statement": "PRINT and STR$ write a number rounded to the nearest one with six significant digits (of two equally near ones that with an even last digit), without zeros behind the last digit that counts, with an exponent of at least two digits exactly if the rounded number is below 0.0001 or not below 1000000; whole numbers of up to six digits are written exactly. The text is determined by the number, and reading it back with VAL, READ or INPUT gives the double nearest to the rounded number.", "quantifier": "all doubles", "why_tests_cant": "2^64 values; rounding boundaries, carries into a new digit and changes of format.", "anchors": ["Basic/run.c: execute (B_PRINT_NUM, B_STR)"]}
{"id": "C55", "title": "Every number a session holds is a double", "statement": "At every moment of every session, every number on the operand stack, in a variable, in an element of an array, as limit or step of a loop, set aside during a call of a user-defined function, or written in the program, in the typed line or in a function definition, is a number a double can hold; so the operators, PRINT and STR$ always give the results described in C53 and C54.", "quantifier": "all sessions, all programs, all inputs, all moments", "why_tests_cant": "Unboundedly many sessions and ways for a number to arise; the claim is an invariant of all of them.", "anchors": ["Basic/run.c: execute", "Basic/run.c: convert", "Basic/lexer.c: strtod", "Basic/parse.c: primary_expression"]}
{"id": "C56", "title": "The command line is understood as documented", "statement": "Every option works in both of its spellings and anywhere among the arguments; switches can be combined and repeated; of several modes the last counts; at most one file can be named; a request for help shows the usage, which names every option, and does nothing else; an unknown option or a second file name ends the process with a message before anything is run; --version shows the version and does nothing else. The options found are determined by the arguments.", "quantifier": "all lists of arguments", "why_tests_cant": "Unboundedly many argument lists; interaction and order of options.", "anchors": ["System/options.c: parse_options", "System/lbasic.c: main"]}
{"id": "C57", "title": "A program file named on the command line is run as its statements say", "statement": "legacy-basic FILE shows the version (unless --quiet), then exactly what the statements of the program in the file print (read with keywords recognised anywhere, and with the texts of the tracing put in, if asked for), reads from the input exactly what its INPUT statements read, then shows the report of memory if asked for, and ends with success however the program ends; a program that runs for ever never ends; a file that cannot be opened ends with success without running anything, and a file that is not a program in ascending order ends the process with a message.", "quantifier": "all files, all argument lists that ask for a run, all inputs", "why_tests_cant": "Unboundedly many programs and inputs; termination.", "anchors": ["System/lbasic.c: main", "System/lbasic.c: process_file", "Basic/run.c: vm_load_source", "Basic/run.c: run_program"]}
{"id": "C58", "title": "Listing, checking and dumping a program file", "statement": "--list shows every line with its number in five columns (what it shows can be loaded again if every number has five digits, and cannot if the first has fewer); --parse shows nothing and ends with success exactly if compiling for a run succeeds, in particular on every program of the documented statements, and where it ends with failure running the program does nothing either; --code accepts the same programs, never fails on an accepted one, numbers its rows from 0 and shows every line of the program in order among them; --list-names shows every name on the lines outside remarks exactly once, in dictionary order ignoring case, with the names of functions and of SPC and TAB flagged, and ends on every file; in each of these modes, a file that cannot be opened shows nothing and the process ends with success.", "quantifier": "all files and argument lists", "why_tests_cant": "Unboundedly many programs; the claim about --code needs that every symbol and line number the compiler writes is valid.", "anchors": ["System/lbasic.c: process_file", "System/lbasic.c: list_file", "System/lbasic.c: list_names", "System/lbasic.c: print_name", "Basic/symbol.c: print_binst"]}
{"id": "C59", "title": "A whole dialogue prints what each line typed means", "statement": "Started without a file, the process prints the greeting (unless --quiet) and then, for every line typed, the prompt and what that line makes it print: nothing for entering, replacing or deleting a program line, NEW, SAVE, LOAD, COMPILE and blank or starred lines; the lines asked for with LIST; the help text for HELP; the message for a line that is too long, for BYE or NEW with something behind it, for LIST or RENUM followed by something other than numbers, for LOAD or SAVE without a quoted name or with something behind it; nothing on the standard output for a file that cannot be written; LIST with P pauses for a line after every page; CONT is refused unless the program was stopped and not changed since then; and for RUN exactly what the statements of the program as it then stands print, where INPUT reads the lines typed after RUN. What happened earlier - other programs, runs, names, errors - makes no difference except through the program, the files, the random generator, the clock and the last line read by INPUT. The process ends with success at BYE or at the end of the input. A mode asked for without a file is refused.", "quantifier": "all sequences of such lines of any length, all programs and inputs", "why_tests_cant": "Unboundedly many dialogues; independence of a run from everything done before it.", "anchors": ["System/lbasic.c: main", "Monitor/interactive.c: interact", "Monitor/interactive.c: interpret", "Basic/run.c: run_program"]}
{"id": "C60", "title": "Naming a file on the command line does what LOAD and RUN do", "statement": "legacy-basic FILE, with any of the switches, prints what LOAD \"FILE\" followed by RUN prints at any point of a dialogue with the same switches, leaves the same input unread, and reports a malformed file or halts exactly where they do - whatever the dialogue did before, for every file, also if the file does not compile, the program fails or the run is interrupted.", "quantifier": "all files, all switches, all dialogues before, all inputs and interrupts", "why_tests_cant": "Relates two entry points over all programs and all histories.", "anchors": ["System/lbasic.c: process_file", "Monitor/interactive.c: command (CMD_LOAD, CMD_RUN)", "Basic/run.c: vm_load_source, run_program, vm_clear_values"]}
{"id": "C61", "title": "Tracing changes nothing but what is printed", "statement": "Running a file with --trace-basic or --trace-for or both ends in the same way, with the same exit status, the same input consumed and the same fatal failures as running it without, and prints the same text with the texts of the tracing put in: numbers of lines of the program in brackets (only with --trace-basic), and the line and the open loops at FOR and NEXT (only with --trace-for). Tracing itself never fails. A line that is reached is shown by its own number.", "quantifier": "all files, all other switches, all inputs, all interrupts, all histories of a session", "why_tests_cant": "A relation between two whole executions of every program; tracing looks up the current line and every open loop's variable, which must exist at every step.", "anchors": ["Basic/run.c: execute (B_SOURCE_LINE, B_FOR, B_NEXT_VAR, B_NEXT_IMP), dump_for, dump_for_stack", "System/lbasic.c: process_file", "System/options.c: parse_options"]}
{"id": "C62", "title": "--keywords-anywhere changes nothing for programs whose names contain no keyword", "statement": "If keywords and names of a program are separated and no name in it contains a keyword (in any letter case), running its file with --keywords-anywhere ends exactly when running it without does, prints the same text and reads the same part of the input. Names that contain a keyword, like TOTAL, do make a difference.", "quantifier": "all programs, all other arguments that ask for a run, all inputs", "why_tests_cant": "Two ways of dividing text into words have to agree on every program; a keyword could begin in a name and go on behind it.", "anchors": ["Basic/lexer.c: lex_next", "Basic/token.c: keyword_prefix", "System/options.c: parse_options", "System/lbasic.c: process_file"]}
