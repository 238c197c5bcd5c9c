{"id": "C01", "title": "Tokenizing is total and stays inside the source buffer", "statement": "For every source text, tokenizing terminates and never reads a character past the terminating NUL; it returns either a token list or a diagnosed failure.", "quantifier": "every finite source text, with and without --werror", "why_tests_cant": "The loops advance a raw pointer by data-dependent amounts; a test only exercises the texts it lists, an overrun needs one particular ending.", "anchors": ["skull/parse/token.c: tokenize, tokenize_inner_loop, iter_comment, iter_quote, parse_delimiter, chomp, next_line"]}
{"id": "C02", "title": "No source text is lost between tokens", "statement": "When tokenizing succeeds, the token texts are slices of the source, in source order and not overlapping, and every character that is in no token is a space, tab or carriage return (or the leading byte order mark).", "quantifier": "every source text that tokenizes", "why_tests_cant": "Losing or duplicating one character for one rare arrangement of quotes, comments and delimiters silently changes the program.", "anchors": ["skull/parse/token.c: tokenize, tokenize_inner_loop, parse_delimiter"]}
{"id": "C03", "title": "Reported line numbers are right", "statement": "The line recorded for a token is one plus the number of newline characters of the source that precede the token's first character.", "quantifier": "every source text that tokenizes, every token of it", "why_tests_cant": "Newlines are counted in four different places (delimiter, string, line comment, block comment); all combinations cannot be listed.", "anchors": ["skull/parse/token.c: next_line, iter_comment, iter_quote, parse_delimiter, token_add_info"]}
{"id": "C04", "title": "Reported column numbers are right", "statement": "The column recorded for a token is one plus the number of characters between the token's first character and the preceding newline (or start of file).", "quantifier": "every source text that tokenizes, every token of it", "why_tests_cant": "Column upkeep is spread over several loops that each skip characters; a test checks one layout.", "anchors": ["skull/parse/token.c: chomp, next_line, iter_quote, iter_comment, token_add_info"]}
{"id": "C05", "title": "The lexical grammar is exactly the documented one", "statement": "Tokenizing succeeds exactly when every quote is closed, every block comment is closed and not nested, and every comment starts with '# ', '#\\t' or '#{'; and then the token boundaries and kinds are the ones the lexical grammar gives (single character delimiters, comments, words with embedded quoted parts).", "quantifier": "every source text", "why_tests_cant": "Soundness and completeness of a recogniser against a grammar is a statement over all strings.", "anchors": ["skull/parse/token.c: tokenize_inner_loop, is_delimeter, iter_comment, is_valid_comment_start, iter_quote, parse_delimiter"]}
{"id": "C06", "title": "A comment is only the comment", "statement": "A line comment extends from its '#' to the end of the line and a block comment from '#{' to the first '#}' after it; characters before and after belong to other tokens.", "quantifier": "every source text that tokenizes, every comment in it", "why_tests_cant": "Needs every possible neighbouring character and every possible comment body.", "anchors": ["skull/parse/token.c: iter_comment, tokenize_inner_loop"]}
{"id": "C07", "title": "Integer literals are recognised exactly", "statement": "A token text that is not a reserved word is classified as an integer constant exactly when it is: an optional minus and decimal digit groups joined by single underscores; or 0x/0b/0o followed by digit groups of that base joined by single underscores.", "quantifier": "every token text", "why_tests_cant": "The recogniser walks pointers and looks at str[-1]; all digit/underscore arrangements are infinite in number.", "anchors": ["skull/parse/classify.c: is_constant_integer_str, EXHAUST_STR_INT, classify_token"]}
{"id": "C08", "title": "Float literals are recognised exactly", "statement": "A token text is classified as a float constant exactly when it is Infinity, -Infinity, NaN, or an optional minus, digit groups joined by single underscores, a dot, and one or more digits.", "quantifier": "every token text", "why_tests_cant": "Infinite set of candidate texts, several off-by-one prone look-behinds.", "anchors": ["skull/parse/classify.c: is_constant_float_str, classify_token"]}
{"id": "C09", "title": "Identifiers are recognised exactly", "statement": "A token text that is no reserved word, type or constant is classified as an identifier, a dotted identifier or a declaration 'name:' exactly when it follows the identifier grammar (letter first; then letters, digits, underscores and inner dots; for declarations one final colon, no dot, and a name that is not reserved).", "quantifier": "every token text", "why_tests_cant": "Infinite set of candidate texts.", "anchors": ["skull/parse/classify.c: is_valid_identifier_str, classify_token, is_reserved_str"]}
{"id": "C10", "title": "Every word has exactly one meaning and keywords cannot be captured", "statement": "Classification assigns every word the kind of the reserved word, operator or type name it spells when it spells one, regardless of what follows the word in the file; it never depends on characters outside the token.", "quantifier": "every token in every source text", "why_tests_cant": "Words are compared in place inside the source buffer; a comparison that ran past the word would depend on what follows it.", "anchors": ["skull/parse/classify.c: classify_token, is_reserved_str", "skull/parse/token.c: token_cmp, token_to_string"]}
{"id": "C11", "title": "Integer literals have their mathematical value", "statement": "An integer literal in any base, with any underscores, evaluates to the integer it denotes if that fits in 64 bit two's complement, and is rejected with an overflow diagnostic otherwise; it never silently wraps.", "quantifier": "every integer literal token in every source text", "why_tests_cant": "2^64 values in four bases times all underscore placements times every text that may follow the literal.", "anchors": ["skull/semantic/types.c: eval_integer, strip_underscore_num"]}
{"id": "C12", "title": "Float literals are passed on unchanged", "statement": "The text handed to the C library for conversion is the literal with its underscores removed, and an out-of-range literal is diagnosed.", "quantifier": "every float literal token", "why_tests_cant": "All digit and underscore placements.", "anchors": ["skull/semantic/types.c: eval_float, strip_underscore_num"]}
{"id": "C13", "title": "String literals denote their contents", "statement": "A string literal evaluates to the characters between its quotes with each escape replaced by the character it names; unknown escapes are rejected; every text without NUL can be written as a literal and evaluates back to itself.", "quantifier": "every string literal token; every text", "why_tests_cant": "Escapes can be adjacent to anything, including the closing quote; hexadecimal escapes are variable length.", "anchors": ["skull/semantic/types.c: eval_str", "skull/common/str.c: c32sunescape, escape_hex, c32unhex"]}
{"id": "C14", "title": "Rune literals denote exactly one character", "statement": "A rune literal is accepted exactly when it is a quote, one character or one valid escape, and a quote, and it evaluates to that character.", "quantifier": "every token of rune kind", "why_tests_cant": "All characters and all escapes.", "anchors": ["skull/semantic/types.c: eval_rune", "skull/parse/classify.c: is_constant_rune_str"]}
{"id": "C15", "title": "Evaluating a literal stays inside its buffers", "statement": "Evaluating any literal token that the tokenizer and classifier can produce reads and writes only inside the source text and the buffers allocated for it.", "quantifier": "every source text, every literal token of it", "why_tests_cant": "An overrun by one or two characters needs one particular arrangement after the literal and shows nothing without a sanitizer.", "anchors": ["skull/semantic/types.c: eval_integer, eval_float, eval_rune, eval_str, strip_underscore_num"]}
{"id": "C16", "title": "Source bytes are decoded as UTF-8 without loss", "statement": "A file is accepted exactly when it is valid UTF-8 without NUL bytes, and then encoding the decoded text gives the file's bytes back.", "quantifier": "every byte sequence", "why_tests_cant": "2^n byte sequences; truncated, overlong and surrogate encodings.", "anchors": ["skull/common/str.c: mbstoc32s, c32stombs"]}
{"id": "C17", "title": "The symbol table is a first-write-wins map", "statement": "After any sequence of insertions, looking up a key yields the value of the first insertion of that key, and nothing for other keys, however keys collide; an insertion reports success exactly when the key was absent.", "quantifier": "every sequence of insertions and lookups, every set of keys", "why_tests_cant": "Collisions of the 64-way hash and their interleavings cannot be enumerated.", "anchors": ["skull/common/hashtable.c: ht_add, ht_get, ht_hash_key"]}
{"id": "C18", "title": "The growable vector is a list", "statement": "After any sequence of push, pop and freeze, the vector's contents are those of a list under append and drop-last, indexing inside the length returns the element pushed there, outside returns nothing, and no operation touches memory outside the allocated capacity.", "quantifier": "every operation sequence", "why_tests_cant": "Growth happens at capacity boundaries reached only by particular push/pop histories.", "anchors": ["skull/common/vector.c: vector_push, vector_pop, vector_at, vector_freeze"]}
{"id": "C19", "title": "Output file names are derived correctly", "statement": "The output path for a source path is its directory part, a dot, its base name, a dot and the extension, and building it stays inside the allocated buffer.", "quantifier": "every source path and extension", "why_tests_cant": "Pointer arithmetic over all lengths and slash positions.", "anchors": ["skull/common/io.c: gen_filename", "skull/codegen/shared.c: get_new_filename"]}
{"id": "C20", "title": "Only files with the .sk extension are compiled", "statement": "A command line is accepted only if the source path ends in .sk.", "quantifier": "every path", "why_tests_cant": "All paths; the check looks for the text anywhere in the path.", "anchors": ["skull/cli.c: build_data_valid, handle_args", "skull/common/str.c: strrstr"]}
{"id": "C21", "title": "Linkage names are unambiguous and memory safe", "statement": "For a source path whose base name ends in .sk, the exported linkage name is module name, dot, symbol name, and the entry function is dot, module name; distinct symbols of one module get distinct linkage names; building them stays inside the allocated buffers.", "quantifier": "every path and every symbol name", "why_tests_cant": "Lengths are computed by subtracting constants from path lengths; underflow needs a short base name.", "anchors": ["skull/semantic/mangle.c: mangle_name", "skull/codegen/abi.c: create_main_func_name"]}
{"id": "C22", "title": "Contradictory or repeated options are refused", "statement": "Every command line that repeats a flag, combines two optimisation levels, two of -E/-S/-c, -q with --werror, -S with the C backend, or --llvm-no-verify with the C backend is refused; so is --color when the COLOR variable already enables colour, a second -o, an unknown option and an incomplete one; every other combination of known flags with a source path that contains .sk is accepted and sets exactly the named settings.", "quantifier": "every argument vector", "why_tests_cant": "The number of flag combinations and orders is exponential.", "anchors": ["skull/cli.c: handle_args, build_data_valid, set_bool_flag, parse_long_option"]}
{"id": "C23", "title": "The order of options does not matter", "statement": "Permuting complete options (an option together with its argument) on the command line does not change the resulting settings or whether it is accepted.", "quantifier": "every argument vector and every permutation of it", "why_tests_cant": "Factorially many orders.", "anchors": ["skull/cli.c: handle_args"]}
{"id": "C24", "title": "Parsing terminates", "statement": "For every token list the parser finishes; each statement and expression consumes at least one token or stops.", "quantifier": "every token list", "why_tests_cant": "Mutually recursive loops over a cursor; a missed advance shows only on the token sequence that hits it.", "anchors": ["skull/parse/ast_node.c: parse_ast_tree, parse_ast_node, parse_expression, parse_func_call"]}
{"id": "C25", "title": "Malformed programs are diagnosed, never undefined behaviour", "statement": "For every source text the front end (decode, tokenize, classify, parse, semantic check) ends in success or a diagnosed failure and performs no undefined operation such as dereferencing a null pointer.", "quantifier": "every source text", "why_tests_cant": "A null pointer reached by one unusual token sequence passes every test that does not contain it.", "anchors": ["skull/parse/ast_node.c: parse_var_def, parse_function_proto, parse_single_expr", "skull/parse/classify.c: classify_token", "skull/semantic/expr.c: validate_expr"]}
{"id": "C26", "title": "Expressions keep their operands and operators in order", "statement": "Reading the tree built for an expression from left to right gives exactly the operands and operators of the source in source order: nothing is dropped, duplicated or swapped.", "quantifier": "every token sequence that parses as an expression", "why_tests_cant": "Tree rotations depend on the whole operator sequence.", "anchors": ["skull/parse/ast_node.c: parse_expression, parse_expr_rhs, parse_single_expr"]}
{"id": "C27", "title": "Operator precedence and associativity are honoured", "statement": "Without parentheses, the tree of an expression has every operator's operands bind at least as tightly as the precedence table says, and operators of equal precedence group to the left.", "quantifier": "every expression token sequence", "why_tests_cant": "Unbounded operator chains; violations need three precedence levels.", "anchors": ["skull/parse/ast_node.c: parse_expression, parse_expr_rhs, oper_to_precedence"]}
{"id": "C28", "title": "Parentheses group", "statement": "A parenthesised subexpression is one operand of the operator next to it.", "quantifier": "every expression token sequence with parentheses", "why_tests_cant": "Unbounded nesting and positions.", "anchors": ["skull/parse/ast_node.c: parse_paren_expr, parse_expression"]}
{"id": "C29", "title": "Every rejected program gets a diagnostic", "statement": "Whenever parsing or semantic checking rejects a program, at least one error diagnostic has been emitted.", "quantifier": "every token list / program", "why_tests_cant": "Each early return needs its own program; silent ones are invisible to tests that only look at the exit status.", "anchors": ["skull/parse/ast_node.c: parse_condition, parse_namespace, parse_ast_node", "skull/semantic/scope.c: scope_add_symbol"]}
{"id": "C30", "title": "An explicitly typed declaration needs its equals sign", "statement": "'name: Type' followed by anything but '=' and an expression is rejected.", "quantifier": "every token list", "why_tests_cant": "All tokens that could stand in the place of '='.", "anchors": ["skull/parse/ast_node.c: parse_var_def, is_explicit_type"]}
{"id": "C31", "title": "Blocks nest as written", "statement": "The statement tree of an accepted token list nests exactly like its braces: each block belongs to the statement before its opening brace and contains exactly the statements between its braces.", "quantifier": "every token list that parses", "why_tests_cant": "Unbounded nesting and statement sequences.", "anchors": ["skull/parse/ast_node.c: parse_ast_tree_, parse_ast_sub_tree_, push_ast_node"]}
{"id": "C32", "title": "Reference types are equal exactly when they are spelled equal", "statement": "Two reference types built at any two points of a compilation are the same type exactly when they have the same referent type and depth.", "quantifier": "every sequence of type constructions", "why_tests_cant": "Types are compared by address; interning must hold for all histories.", "anchors": ["skull/semantic/types.c: get_reference_type, find_builtin_type, token_to_type"]}
{"id": "C33", "title": "A name denotes the innermost declaration in force", "statement": "Looking up an undotted name yields the declaration of that name in the nearest enclosing block that has one, and nothing if there is none; lookup terminates.", "quantifier": "every scope structure reachable by declarations and blocks, every name", "why_tests_cant": "Scopes form a linked graph (parent, last, child, next); all histories of opening and closing blocks.", "anchors": ["skull/semantic/scope.c: scope_find_name, make_child_scope, make_adjacent_scope, restore_parent_scope"]}
{"id": "C34", "title": "No declaration shadows or redefines a visible name", "statement": "In an accepted program, no declaration introduces a name that is already visible at that point, including builtin type names.", "quantifier": "every program accepted by the semantic check", "why_tests_cant": "All programs.", "anchors": ["skull/semantic/scope.c: scope_add_symbol, symbol_already_exists"]}
{"id": "C35", "title": "Names are gone when their block ends", "statement": "A variable declared inside a block, loop body, branch or function (also a parameter) cannot be referred to after the closing brace of that block, and can be declared again there.", "quantifier": "every program", "why_tests_cant": "All nestings of blocks.", "anchors": ["skull/semantic/scope.c: make_child_scope, make_adjacent_scope, restore_parent_scope", "skull/semantic/entry.c: setup_and_validate_ast_sub_tree"]}
{"id": "C36", "title": "A dotted name denotes a member of that namespace", "statement": "ns.x refers to the declaration of x inside namespace ns, and is rejected when ns has no such member.", "quantifier": "every program with namespaces", "why_tests_cant": "All scope structures; the fallback to enclosing scopes shows only when the member is missing.", "anchors": ["skull/semantic/scope.c: scope_find_name"]}
{"id": "C37", "title": "Every use of a variable is after its definition", "statement": "In an accepted program every identifier in an expression or assignment names a variable that is visible there and whose definition was completed earlier.", "quantifier": "every accepted program", "why_tests_cant": "All programs.", "anchors": ["skull/semantic/scope.c: scope_find_var", "skull/semantic/expr.c: validate_expr", "skull/semantic/variable.c"]}
{"id": "C38", "title": "Constants are never reassigned", "statement": "In an accepted program no assignment targets a variable declared without mut (or a function parameter), and every assigned value has the variable's type.", "quantifier": "every accepted program", "why_tests_cant": "All programs.", "anchors": ["skull/semantic/assign.c: validate_stmt_var_assign"]}
{"id": "C39", "title": "Expressions are typed by the language's type rules", "statement": "The type checker accepts an expression with a type exactly when the type rules of the language (an inductive relation) give it that type; in particular the type of an accepted expression is unique.", "quantifier": "every expression tree over every environment", "why_tests_cant": "Unbounded expression trees.", "anchors": ["skull/semantic/expr.c: validate_expr and all cases"]}
{"id": "C40", "title": "Calls match the function's signature", "statement": "An accepted call passes exactly as many arguments as the function has parameters and each argument has the parameter's type.", "quantifier": "every accepted program", "why_tests_cant": "All argument counts, including ones that overflow the 16 bit counters.", "anchors": ["skull/semantic/expr.c: validate_expr_func", "skull/semantic/func.c", "skull/parse/ast_node.c: parse_func_call"]}
{"id": "C41", "title": "Returns match the enclosing function", "statement": "In an accepted program every return statement gives a value of the return type of the function it is written in (Int for the top level), or none if that function returns nothing.", "quantifier": "every accepted program", "why_tests_cant": "Depends on the history of declarations before the return, not just on the function.", "anchors": ["skull/semantic/func.c: validate_stmt_return, post_validate_stmt_func_decl", "skull/semantic/entry.c"]}
{"id": "C42", "title": "break and continue only occur inside loops", "statement": "In an accepted program every break and continue is inside a while body with no function boundary in between.", "quantifier": "every accepted program", "why_tests_cant": "All nestings.", "anchors": ["skull/semantic/flow.c: validate_control_break, validate_control_continue, validate_control_while"]}
{"id": "C43", "title": "No code follows a jump", "statement": "In an accepted program nothing but comments, noop and unreachable follows a return, break, continue or unreachable in the same block.", "quantifier": "every accepted program", "why_tests_cant": "All statement sequences.", "anchors": ["skull/semantic/flow.c: no_dead_code_below"]}
{"id": "C44", "title": "else and elif follow an if", "statement": "In an accepted program every else and elif is preceded in its block, comments aside, by an if or elif.", "quantifier": "every accepted program", "why_tests_cant": "All statement sequences.", "anchors": ["skull/semantic/flow.c: validate_control_else, validate_control_elif"]}
{"id": "C45", "title": "A function that promises a value ends by returning one", "statement": "In an accepted program the body of a non-external function with a return type contains a return with a value at its top level, and a function without return type contains no top level return with a value.", "quantifier": "every accepted program", "why_tests_cant": "All bodies.", "anchors": ["skull/semantic/func.c: post_validate_stmt_func_decl"]}
{"id": "C46", "title": "Conditions are Bool", "statement": "In an accepted program the condition of every if, elif and while has type Bool.", "quantifier": "every accepted program", "why_tests_cant": "All programs.", "anchors": ["skull/semantic/flow.c: validate_control_if, validate_control_while"]}
{"id": "C47", "title": "Constant division by zero is rejected", "statement": "No accepted program contains a division whose divisor is the integer literal zero.", "quantifier": "every accepted program", "why_tests_cant": "All programs.", "anchors": ["skull/semantic/expr.c: validate_expr division"]}
{"id": "C48", "title": "--werror turns every warning into failure", "statement": "With --werror, a program for which any warning is emitted is rejected.", "quantifier": "every program", "why_tests_cant": "Warnings come from several phases and nested blocks; the combination logic depends on their order.", "anchors": ["skull/semantic/unused.c: check_unused_symbols", "skull/common/errors.h: FMT_WARN", "skull/parse/token.c: tokenize"]}
{"id": "C49", "title": "Unused symbols are reported exactly", "statement": "A warning is reported for each local declaration that is never used (and for each mut variable that is never reassigned), and for nothing else.", "quantifier": "every program", "why_tests_cant": "All programs.", "anchors": ["skull/semantic/unused.c: check_unused_symbols"]}
{"id": "C50", "title": "The C text of an expression means the expression", "statement": "The C text generated for an expression of an accepted program has exactly one reading by C's lexical rules and grammar, and that reading is the expression's own tree: the same operators, operands, calls and constants, grouped the same way.", "quantifier": "every expression of every accepted program", "why_tests_cant": "Unbounded expression trees.", "anchors": ["skull/codegen/c/expr.c: gen_expr_c, gen_expr_binary_c, gen_expr_unary_c, gen_expr_func_call_c"]}
{"id": "C51", "title": "String constants survive the C backend", "statement": "The C string literal generated for a string constant denotes that constant's characters.", "quantifier": "every string value", "why_tests_cant": "All strings, including those with quotes, backslashes and newlines.", "anchors": ["skull/codegen/c/expr.c: gen_expr_const"]}
{"id": "C52", "title": "Integer power is exponentiation", "statement": "The run time integer power function returns base to the exponent modulo 2^64 and terminates.", "quantifier": "every base and exponent", "why_tests_cant": "2^128 argument pairs.", "anchors": ["skull/codegen/c/write.c: _int_pow", "skull/codegen/llvm/shim.ll: _int_pow"]}
{"id": "C53", "title": "String comparison is equality", "statement": "The run time string comparison returns true exactly for equal NUL terminated strings and never reads past either terminator.", "quantifier": "every pair of strings", "why_tests_cant": "All string pairs.", "anchors": ["skull/codegen/c/write.c: _strcmp", "skull/codegen/llvm/shim.ll: _strcmp"]}
{"id": "C54", "title": "Both back ends give integer expressions the same value", "statement": "For every accepted integer or boolean expression and every valuation of its variables, the LLVM code and the C code compute the same value, the one the language documentation gives.", "quantifier": "every expression, every valuation", "why_tests_cant": "Unbounded expressions over 64 bit values.", "anchors": ["skull/codegen/llvm/expr.c: gen_expr", "skull/codegen/c/expr.c: gen_expr_c"]}
{"id": "C55", "title": "break and continue go to the innermost enclosing loop", "statement": "In generated code a break jumps to the end and a continue to the condition of the innermost while that contains it.", "quantifier": "every accepted program", "why_tests_cant": "All nestings and sequences of loops.", "anchors": ["skull/codegen/llvm/flow.c: gen_control_while, gen_control_break, gen_control_continue"]}
{"id": "C56", "title": "Generated control flow is well formed", "statement": "Every basic block of generated code ends in exactly one terminator.", "quantifier": "every accepted program", "why_tests_cant": "All control structures.", "anchors": ["skull/codegen/llvm/flow.c", "skull/codegen/llvm/core.c: gen_tree, gen_node"]}
{"id": "C57", "title": "Diagnostics carry their location and arguments", "statement": "A formatted diagnostic contains the file, line and column of the token it is about and the texts it names, in order, and formatting never reads past the argument list.", "quantifier": "every diagnostic, every argument text", "why_tests_cant": "Format strings with up to three arguments and arbitrary argument texts, including texts that contain percent signs.", "anchors": ["skull/common/errors.c: fmt_message, get_error_msg, message_stringify"]}
{"id": "C58", "title": "The check accepts exactly the well formed programs", "statement": "The semantic check accepts a program exactly when the rules of the language, given as inductive relations over environments without scopes or tables, say that it is well formed.", "quantifier": "every program", "why_tests_cant": "Unboundedly many programs, and both directions: nothing wrong accepted, nothing right refused.", "anchors": ["skull/semantic/entry.c: validate_ast_tree", "skull/semantic/func.c", "skull/semantic/flow.c", "skull/semantic/assign.c"]}
{"id": "C59", "title": "Code of the LLVM back end does what the program does", "statement": "If an accepted program, run by the meaning the documentation gives to its statements and expressions, comes to its end with some exit value after some calls of external functions, then running the LLVM code generated for it gives the same exit value after the same calls, and nothing else.", "quantifier": "every accepted program, every input from external functions, every number of steps", "why_tests_cant": "Whole programs with loops, recursion and external functions; runs of any length.", "anchors": ["skull/codegen/llvm/core.c: gen_tree, gen_node", "skull/codegen/llvm/expr.c", "skull/codegen/llvm/assign.c", "skull/codegen/llvm/flow.c", "skull/codegen/llvm/func.c", "docs/expressions.md", "docs/skull/codegen/llvm/expr.md"]}
{"id": "C60", "title": "Everything is declared before it is used, and once", "statement": "In an accepted program every variable that is read or assigned to and every function that is called resolves to a declaration that stands earlier in the same block or in a block around the use, possibly inside a namespace, or to a parameter of a function around the use; no two declarations resolve to the same symbol.", "quantifier": "every accepted program", "why_tests_cant": "Every nesting of functions, namespaces and blocks, recursion, shadowing.", "anchors": ["skull/semantic/entry.c: validate_ast_sub_tree", "skull/semantic/scope.c: scope_find_name", "skull/semantic/func.c", "skull/semantic/assign.c", "skull/semantic/expr.c"]}
{"id": "C61", "title": "The LLVM back end handles every accepted program", "statement": "Generating LLVM code for a program that the check has accepted never runs into a failing assertion, a null pointer or a missing case: every symbol that is used has been given its place, every operator finds code for the types of its operands, and every block that is branched from exists.", "quantifier": "every accepted program that is not empty", "why_tests_cant": "Every combination of statements, operators and types; every nesting of functions, namespaces and blocks.", "anchors": ["skull/codegen/llvm/core.c: gen_tree, gen_node", "skull/codegen/llvm/expr.c: gen_expr, gen_expr_is", "skull/codegen/llvm/assign.c: setup_var_llvm, assign_value_to_var", "skull/codegen/llvm/func.c: gen_expr_func_call, gen_function_def", "skull/codegen/llvm/flow.c: gen_control_if, gen_control_while"]}
{"id": "C62", "title": "Nothing is generated from a program that is refused", "statement": "If running the compiler writes a file, prints code or runs a command, then the command line asked for a compilation and the source held a program that the check accepts; and the exit code of a compilation is 0 only if the source is such a program, or is empty, in which case nothing is written.", "quantifier": "every command line, every content of every file, every behaviour of LLVM, the linker and the file system", "why_tests_cant": "Every way to fail on the way from the command line to the output: options, reading, decoding, tokens, parsing, the check, the back ends.", "anchors": ["skull/real_main.c: real_main, compile_file", "skull/pipeline.c: run_pipeline", "skull/cli.c: main"]}
{"id": "C63", "title": "Exit code 0 means the output is where it was asked for", "statement": "If the compiler exits with 0 for a source that is not empty, the output that the options ask for (C text, LLVM text, assembly, object file or binary) has been put into the file named with -o, on stdout for '-o -' and -E, or else into the documented place next to the source, and has not been removed again.", "quantifier": "every combination of options, every source, every behaviour of LLVM, the linker and the file system", "why_tests_cant": "All combinations of options with all failures of the tools that are called.", "anchors": ["skull/codegen/llvm/write.c: write_llvm, emit_stage_1, emit_native_binary, output_llvm_ir", "skull/codegen/c/write.c: write_file_c", "skull/codegen/shared.c: get_new_filename", "docs/skull/skull.1"]}
{"id": "C64", "title": "The compiler touches no other files", "statement": "The compiler writes and removes no file but the one named with -o or, without -o, hidden files next to the source that are named after it; the source itself is left alone unless -o names it. The binary is made by the linker.", "quantifier": "every command line, every source", "why_tests_cant": "Every path, every combination of options and every way a run can end.", "anchors": ["skull/codegen/llvm/write.c: emit_stage_1, emit_native_binary, output_llvm_ir", "skull/codegen/c/write.c: write_file_c", "skull/common/io.c: gen_filename"]}
{"id": "C65", "title": "The linker gets its arguments unharmed", "statement": "The command that links a binary, as the shell reads it, has the object file, the name of the binary and every argument given after -- as one word each, in this order.", "quantifier": "every path and every list of arguments", "why_tests_cant": "Paths and arguments with blanks, quotes and other characters that mean something to a shell.", "anchors": ["skull/codegen/llvm/write.c: emit_native_binary, sh", "skull/cli.c: squash_argv"]}
{"id": "C66", "title": "A run that fails says so", "statement": "If the compiler exits with a code other than 0 and was not told to be quiet, it has printed a message or at least one diagnostic, or has run the linker, which speaks for itself.", "quantifier": "every command line, every content of every file, every behaviour of LLVM, the linker and the file system", "why_tests_cant": "Every way to fail on the way from the command line to the output; silent ones are invisible to tests that only look at the exit code.", "anchors": ["skull/real_main.c: real_main, compile_file", "skull/pipeline.c: run_pipeline", "skull/codegen/llvm/write.c: write_llvm", "skull/semantic/symbol.c: scope_add_symbol", "skull/parse/ast_node.c: parse_condition"]}
{"id": "C67", "title": "A binary does what its source says", "statement": "When the compiler ends with exit code 0 and was asked for a binary, it has linked a module to that binary such that, whenever the program in the source comes to its end and returns i, the process calls exit with i, after the same calls of external functions in the same order; and it can end in no other way.", "quantifier": "every command line, every source, every input of the program, every correct behaviour of LLVM and the linker", "why_tests_cant": "Every program with every behaviour of its external functions, through all stages at once, at every optimization level.", "anchors": ["skull/real_main.c: real_main", "skull/pipeline.c: run_pipeline", "skull/codegen/llvm/core.c: gen_module", "skull/codegen/llvm/write.c: write_llvm, add_start_shim, emit_native_binary"]}
{"id": "C68", "title": "The C back end handles every accepted program", "statement": "Writing C for a program that the check has accepted never runs into a failing assertion, a null pointer or a missing case, with debug information or without.", "quantifier": "every accepted program", "why_tests_cant": "Every combination of statements, operators and types; every nesting of functions, namespaces and blocks.", "anchors": ["skull/codegen/c/core.c: gen_module_c, gen_tree_c, gen_node_c", "skull/codegen/c/flow.c: gen_control_block_c, gen_control_else_c, gen_control_namespace_c", "skull/codegen/c/func.c: gen_function_prototype_c", "skull/codegen/c/assign.c: gen_stmt_constexpt_global_var", "skull/codegen/c/expr.c", "skull/codegen/c/debug.c: apply_debug_info"]}
{"id": "C69", "title": "The C back end writes C, and the program that was given to it", "statement": "What is written for a program that the check has accepted is a C file: behind the headers, and exactly those functions of the run time that some expression of the program needs, C's grammar reads the text in exactly one way, and so read it is the program statement for statement: the same functions with the same parameters and types, the same conditions, loops and expressions, in the same order, and the variables outside of blocks as objects outside of functions.", "quantifier": "every accepted program that is written without debug information", "why_tests_cant": "Every nesting of statements and every expression; whether a text can be read another way is a question about all derivations of a grammar.", "anchors": ["skull/codegen/c/core.c: gen_module_c, gen_tree_c, gen_node_c", "skull/codegen/c/assign.c", "skull/codegen/c/flow.c", "skull/codegen/c/func.c", "skull/codegen/c/expr.c", "skull/codegen/c/types.c: skull_type_to_c_type", "skull/codegen/c/write.c: write_file_c, print_main_shim"]}
{"id": "C70", "title": "C code does what its source says", "statement": "Whenever an accepted program comes to its end and returns i, the C program that the C back end writes for it is one that C takes (every name is defined once and before it is used, initialisers are constant), and its main function comes to its end and returns i, after the same calls of external functions with the same arguments in the same order.", "quantifier": "every accepted program, every behaviour of its external functions, every number of steps", "why_tests_cant": "Every program with every behaviour of its external functions; variables, scopes and the order of evaluation of C are not those of the source.", "anchors": ["skull/codegen/c/core.c: gen_module_c, gen_tree_c, gen_node_c", "skull/codegen/c/assign.c", "skull/codegen/c/flow.c", "skull/codegen/c/func.c", "skull/codegen/c/expr.c", "skull/codegen/c/write.c: write_file_c, print_main_shim"]}
{"id": "C71", "title": "Both back ends make programs that do the same", "statement": "If the code of the LLVM back end for an accepted program comes to its end, and the program that the C back end writes for it does too, they return the same and have called the same external functions with the same arguments in the same order.", "quantifier": "every accepted program, every behaviour of its external functions, every number of steps", "why_tests_cant": "Every program with every behaviour of its external functions, for two pieces of generated code in two languages.", "anchors": ["skull/codegen/llvm/core.c: gen_module", "skull/codegen/c/core.c: gen_module_c", "skull/codegen/backend.c"]}
{"id": "C72", "title": "Debug information points to the right lines of the source, and changes nothing else", "statement": "With debug information the C back end writes the same file as without, line for line, but for lines with directives; behind C's rules for these, the line that a statement begins with comes from the line of the source file that the statement begins at, for every statement of the program, in order; and nothing is told about other lines, but for the first lines of functions.", "quantifier": "every accepted program, every file name", "why_tests_cant": "Every nesting of statements and functions; a debugger that stops at wrong lines is not seen by tests that run programs.", "anchors": ["skull/codegen/c/debug.c: apply_debug_info", "skull/codegen/c/core.c: gen_node_c, gen_tree_c", "skull/codegen/c/func.c: gen_function_prototype_c", "skull/codegen/c/write.c: print_main_shim"]}
{"id": "C73", "title": "No memory of the check is freed twice, or used after it was freed", "statement": "Whatever the source text is, and whether the check accepts or refuses it, from the start of the check to the clean-up at the end of the compiler no symbol, name, variable, function declaration, scope or table is freed twice, freed without having been allocated, or looked at after it was freed.", "quantifier": "every source text that can be parsed, every configuration", "why_tests_cant": "Errors free what they have begun to build, at many places and in many orders; a double free may pass all tests unnoticed.", "anchors": ["skull/semantic/scope.c: free_scope, free_symbol, free_ht_symbol", "skull/semantic/shared.c: free_semantic_state", "skull/semantic/variable.c: free_variable", "skull/semantic/func.c: free_function_declaration, validate_func_params, validate_stmt_func_decl_", "skull/semantic/assign.c: node_to_var", "skull/semantic/types.c: validate_stmt_type_alias", "skull/semantic/flow.c: declare_namespace", "skull/semantic/symbol.c: symbol_already_exists, scope_add_symbol", "skull/errors.c: free_errors_args, add_message", "skull/pipeline.c: run_pipeline"]}
{"id": "C74", "title": "All memory of the check is freed in the end", "statement": "When the compiler is done, every symbol, name, variable, function declaration, scope and table that the check has allocated has been freed, and none of them was freed before the back end was done with it.", "quantifier": "every source text that can be parsed, every configuration", "why_tests_cant": "Every order of declarations, blocks, and namespaces; leaks on the ways of errors are not seen by tests.", "anchors": ["skull/semantic/scope.c: free_scope, free_symbol, make_child_scope, make_adjacent_scope", "skull/semantic/shared.c: free_semantic_state", "skull/semantic/variable.c: free_variable", "skull/semantic/func.c: free_function_declaration", "skull/semantic/assign.c: node_to_var", "skull/semantic/flow.c", "skull/pipeline.c: run_pipeline"]}
{"id": "C75", "title": "Every program of the grammar is parsed, and as it was written", "statement": "Every program written by the rules of the language (definitions, assignments, expressions, returns, imports, external functions and comments, one to a line; functions, if, elif, else, while and namespaces with blocks of such) is accepted by the parser without a message, and its tree has the statements in order, each with the block, names, types, marks and parameters that were written with it. No program can be read in two ways.", "quantifier": "every program of the grammar, of every length and depth", "why_tests_cant": "The grammar has infinitely many programs, and the parser tries several kinds of statements on the same tokens; tests try a few combinations.", "anchors": ["skull/parse/ast_node.c: parse_ast_tree, parse_ast_tree_, parse_ast_node, parse_ast_sub_tree_, parse_function_proto, parse_function_proto_params, parse_var_def, parse_var_assign, is_explicit_type, is_potential_type, parse_condition, parse_return, parse_import, parse_namespace", "docs/variables.md", "docs/functions.md", "docs/control_flow.md"]}
{"id": "C76", "title": "Tokens and syntax tree are freed once, and not used afterwards", "statement": "In every run of the parser that does not access a null pointer (C25), whether it accepts or refuses the tokens, from its start to the end of the compiler no token, node, expression, function call, prototype, parameter or vector is freed twice, freed without having been allocated, or written to, freed or looked at by the functions that free the tree after it was freed; and when a tree is handed on, all of it and all tokens are there.", "quantifier": "every list of tokens", "why_tests_cant": "Errors free what they have begun to build, at any depth of nesting; a double free may pass all tests unnoticed.", "anchors": ["skull/parse/ast_node.c: parse_ast_tree, parse_ast_tree_, parse_ast_sub_tree_, push_ast_node, splice_expr_node, parse_function_proto, parse_function_proto_params, free_ast_tree, free_ast_tree_, free_expr_node, free_expr_func_call, free_ast_function_proto, free_param", "skull/parse/token.c: free_tokens", "skull/common/vector.c", "skull/pipeline.c: run_pipeline"]}
{"id": "C77", "title": "All memory of tokens and syntax tree is freed in the end", "statement": "When the compiler is done with a program the parser has accepted, every token, node, expression, function call, prototype, parameter and vector that was allocated has been freed.", "quantifier": "every list of tokens the parser accepts", "why_tests_cant": "Every nesting of blocks, statements and expressions; a leak is not seen by tests that look at results.", "anchors": ["skull/parse/ast_node.c: parse_ast_sub_tree_, parse_ast_tree_, parse_function_proto, free_ast_tree, free_ast_tree_, free_expr_node, free_ast_function_proto", "skull/parse/token.c: free_tokens", "skull/pipeline.c: run_pipeline"]}
{"id": "C78", "title": "The check keeps the meaning of programs", "statement": "Running the checked tree, in which names have become symbols and literals have become values, gives what the program gives as it is written: when names are looked up where they are used, among the declarations before them in the blocks around them, aliases stand for their types, and literals for what they are written as. This includes the result, every call of an external function with its arguments, and whether the program comes to its end.", "quantifier": "every accepted program, every behaviour of its external functions, every arithmetic, every number of steps", "why_tests_cant": "Every nesting of blocks, functions, namespaces and names that hide each other; a wrong symbol is only seen when it makes a difference in a test.", "anchors": ["skull/semantic/entry.c", "skull/semantic/scope.c: scope_find_name", "skull/semantic/symbol.c: scope_add_symbol", "skull/semantic/expr.c", "skull/semantic/assign.c", "skull/semantic/flow.c", "skull/semantic/func.c", "skull/semantic/types.c", "docs/variables.md", "docs/functions.md"]}
{"id": "C79", "title": "Binaries and C programs do what is written in the source file", "statement": "When the compiler ends with exit code 0 and was asked for a binary, the process exits with what the program returns as it is written in the source file (with names, not symbols), after the same calls of external functions, and in no other way; and the C program that is written for a source does the same.", "quantifier": "every command line, every source file, every behaviour of external functions, every correct behaviour of LLVM and the linker", "why_tests_cant": "All stages from the bytes of the file to the process at once, for every program and every input of it.", "anchors": ["skull/real_main.c: real_main", "skull/pipeline.c: run_pipeline", "skull/semantic/entry.c", "skull/codegen/llvm/core.c: gen_module", "skull/codegen/llvm/write.c: write_llvm, add_start_shim, emit_native_binary", "skull/codegen/c/core.c: gen_module_c", "skull/codegen/c/write.c: write_file_c, print_main_shim"]}
{"id": "C80", "title": "Compiling with -g does not change what a program does", "statement": "With the LLVM back end, a program gets code with -g if and only if it gets code without it, and both do the same: they come to their end with the same result, after the same calls of external functions, or neither of them does.", "quantifier": "every accepted program, every behaviour of its external functions, every sound folding of constants", "why_tests_cant": "-g changes where parameters are kept and adds instructions, in every function; tests compare a few programs.", "anchors": ["skull/codegen/llvm/debug.c: add_llvm_func_debug_info, alloc_debug_function_param", "skull/codegen/llvm/func.c: gen_function_def", "skull/codegen/llvm/expr.c: gen_expr_identifier, gen_expr_ref, gen_expr_deref", "skull/codegen/llvm/flow.c: gen_stmt_noop"]}
{"id": "C81", "title": "The C back end frees all of its memory once", "statement": "Every string that the C back end allocates while it generates and writes a program, and its state, is freed exactly once before it is done, and not used after it was freed; nothing is lost. This is so with and without -g.", "quantifier": "every accepted program of which C code can be written, with and without -g, every order and nesting of statements and expressions", "why_tests_cant": "Which strings are allocated depends on the whole program; a test with a leak checker sees only the paths of its programs.", "anchors": ["skull/codegen/c/core.c: gen_module_c, gen_tree_c, gen_node_c, apply_indentation", "skull/codegen/c/func.c: gen_function_def_c, gen_function_prototype_c, gen_param_c", "skull/codegen/c/assign.c", "skull/codegen/c/expr.c: gen_expr_func_call_c, gen_expr_binary_c, gen_expr_unary_c", "skull/codegen/c/flow.c", "skull/codegen/c/types.c: skull_type_to_c_type", "skull/codegen/c/debug.c: apply_debug_info", "skull/codegen/c/shared.c: setup_c_state, free_c_state", "skull/codegen/c/write.c: write_file_c"]}
{"id": "C82", "title": "LLVM's verifier accepts the module of every accepted program", "statement": "When a program passes the check and LLVM code is generated for it, the module is what LLVM asks for, so compiling does not end with \"error while verifying LLVM\": each block has one jump, at its end, to a block of the same function other than the first; operands have the types that instructions take, arguments those of the parameters, and what is returned that of the function; registers belong to their function, are set once, and are set on every way to where they are used; globals start with constants of their types; no parameter is void, and no private function is without code.", "quantifier": "every accepted program, with and without -g, every well typed folding of constants", "why_tests_cant": "Types and the order of registers along every way through the code, for every nesting of statements and expressions; tests verify the modules of a few programs.", "anchors": ["skull/codegen/llvm/write.c: verify_llvm", "skull/codegen/llvm/core.c: gen_module, gen_node", "skull/codegen/llvm/expr.c", "skull/codegen/llvm/assign.c", "skull/codegen/llvm/func.c", "skull/codegen/llvm/flow.c", "skull/codegen/llvm/types.c: type_to_llvm_type", "skull/semantic/entry.c"]}
{"id": "C83", "title": "Tokens are freed once, also after errors", "statement": "The tokenizer only uses memory that is there, for every text. If it reports an error, all tokens made so far have been freed, once each. If not, following next from the first token comes to an end, gives the tokens in the order of the text, and freeing that list frees, once each, all that was allocated and not freed before, including no token that was popped.", "quantifier": "every text, every error at every place in it, with and without --werror", "why_tests_cant": "Pointers to the current and the previous token are kept up by hand on many paths; a stale one only matters when the last token is popped or an error is reported.", "anchors": ["skull/parse/token.c: tokenize, tokenize_inner_loop, setup_next, make_token, parse_delimiter, iter_quote, iter_comment, token_add_info, free_tokens"]}
{"id": "C84", "title": "Debug information is never the reason that LLVM refuses a module", "statement": "With -g, the LLVM back end generates the instructions that the model without debug information generates, and does not fail because of it. If LLVM accepts the module apart from its debug information, then it accepts that, too: the scope of a location belongs to the function that the instruction is in, every call in a function has a location, the scope of a described variable belongs to the function it is described in, and every global is described once. Every variable and parameter that code is generated for is described once and in order, variables at the line of their definition and parameters at the line of their function.", "quantifier": "every accepted program, every well typed folding of constants, every nesting of functions, blocks and statements", "why_tests_cant": "The scope is a global variable that is saved and set back by hand in several places; a wrong one only shows for some nestings, and only when the module is verified or inlined.", "anchors": ["skull/codegen/llvm/debug.c: add_llvm_debug_info, make_llvm_debug_location, add_llvm_func_debug_info, add_llvm_var_def_debug_info, add_llvm_control_flow_debug_info", "skull/codegen/llvm/func.c: gen_function_def, gen_expr_func_call", "skull/codegen/llvm/assign.c", "skull/codegen/llvm/flow.c", "skull/codegen/llvm/core.c: gen_module, gen_node"]}
{"id": "C85", "title": "With -g, instructions have the locations of the statements they come from", "statement": "With -g, every location that an instruction gets is that of a token of the statement or condition it was generated for (the first token, or one of its expression), and no instruction gets the locations of two statements; a debugger thus stops at the statement that is run.", "quantifier": "every accepted program, every nesting of functions, blocks and statements", "why_tests_cant": "Locations are set on whatever value an expression gives, which may be an old one; tests compare the output for a few programs.", "anchors": ["skull/codegen/llvm/debug.c: add_llvm_debug_info, make_llvm_debug_location", "skull/codegen/llvm/assign.c: assign_value_to_var", "skull/codegen/llvm/flow.c", "skull/codegen/llvm/func.c: gen_expr_func_call"]}
{"id": "C86", "title": "--quiet, --werror and --color change messages and refusals, and nothing else", "statement": "For two command lines that differ in --quiet, --werror and --color only: if both runs end with exit code 0, then they do the same (files written and removed, text on stdout, commands), apart from the diagnostics. Adding --quiet or leaving out --werror never makes a run fail that succeeds, and adding --werror only does so if the run without it prints a diagnostic. With --quiet no diagnostic is printed, whether the run succeeds or not.", "quantifier": "every command line, every source file, every state of the file system, every behaviour of LLVM and the shell", "why_tests_cant": "Both options are looked at in the middle of the check, in several places and after state was changed; a test compares one program at a time.", "anchors": ["skull/common/errors.h: FMT_WARN", "skull/semantic/entry.c: validate_ast_tree", "skull/semantic/unused.c: check_unused_symbols", "skull/semantic/flow.c: validate_bool_expr", "skull/semantic/assign.c: validate_stmt_var_def", "skull/parse/token.c: tokenize", "skull/pipeline.c: run_pipeline", "skull/real_main.c: compile_file"]}
{"id": "C87", "title": "How a program is parsed depends on the kinds of its tokens only", "statement": "Two source texts whose tokens have the same kinds, one by one, are both parsed or both refused: with trees of the same shape, the same operators at the same places, and the same diagnostics at the same tokens. Spaces, the lengths of names, the digits of numbers and the texts of strings and comments make no difference to the parser.", "quantifier": "every list of tokens, every replacement of tokens by others of the same kind", "why_tests_cant": "Every program with every other one of the same kinds; a parser that looks at the text or the place of a token only shows for some texts.", "anchors": ["skull/parse/ast_node.c: parse_ast_tree, parse_ast_node, parse_expression, parse_var_def, parse_function_proto, parse_condition, parse_ast_sub_tree_"]}
{"id": "C88", "title": "Spaces and places make no difference to what is compiled", "statement": "Without -g, two source files whose tokens have the same kinds and the same texts, one by one, are compiled alike: the same exit code, the same diagnostics, and the same files written and removed, text on stdout and commands, in the same order. Indentation, spaces between tokens and spaces at the ends of lines make no difference.", "quantifier": "every two source files with the same tokens, every setting but -g, every state of the file system, every behaviour of LLVM and the shell", "why_tests_cant": "Tokens point into the text, and code that reads past the end of one sees what is behind it; that shows for some neighbours only.", "anchors": ["skull/parse/token.c: tokenize", "skull/parse/classify.c: classify_token", "skull/semantic/types.c: eval_integer, eval_float, eval_bool, eval_rune, eval_str", "skull/semantic/entry.c: validate_ast_tree", "skull/codegen/llvm/core.c: gen_module", "skull/codegen/c/core.c: gen_module_c", "skull/pipeline.c: run_pipeline"]}
{"id": "C89", "title": "Debuggers know the types of variables", "statement": "With -g, every variable is described to debuggers with a type that has the name written in the source, the size that the variable has in memory, and an encoding that shows its value as what it is (numbers, fractions, truth values, letters, and pointers to these at any depth). Different types have different descriptions.", "quantifier": "every type, with any number of references", "why_tests_cant": "Sizes and encodings only matter to another program that reads the object file; a test compares the output with itself.", "anchors": ["skull/codegen/llvm/debug.c: type_to_llvm_di_type, type_to_di_type"]}
{"id": "C90", "title": "Vectors and hash tables free all of their memory once", "statement": "However a vector or a table is used - pushes, pops and reads, additions and lookups, in any order and number, with keys that collide or are there already - no element outside of the storage is accessed, no block is used after it was freed or moved, and freeing the container with the function for its elements frees every block once. A vector whose array was taken leaves exactly the array and its elements.", "quantifier": "every sequence of operations, every key, values of any number of blocks", "why_tests_cant": "Arrays are moved when they grow, and slots are made when they are needed; a leak or a stale pointer shows for some sequences only.", "anchors": ["skull/common/vector.c: make_vector, vector_push, vector_pop, vector_freeze, vector_at, free_vector, free_vector2", "skull/common/hashtable.c: make_ht, ht_add, ht_get, free_ht_item, free_ht"]}
{"id": "C91", "title": "Types of references are freed once, and not while they are used", "statement": "However references are made - to builtin types and to types of references at any depth, for the first time or again - the table of types only reads the names of types that are there, every type made stays valid until the end of the check, and then every type and name is freed once.", "quantifier": "every sequence of types that references are made to", "why_tests_cant": "The names that serve as keys belong to other types of the same table; whether one of them is freed too early depends on the order.", "anchors": ["skull/semantic/types.c: get_reference_type, free_dynamic_type", "skull/semantic/shared.c: free_semantic_state", "skull/common/hashtable.c: ht_add, ht_get, free_ht"]}
{"id": "C92", "title": "A run of skull frees its memory once", "statement": "Whatever the command line, the file system and the source, and wherever a run stops: the names, the text, the tokens, the tree and the states that the driver makes are not used after they were freed, none is freed twice, and all of them are freed when the process ends.", "quantifier": "every command line, every content of files, every behaviour of LLVM and the shell that ends", "why_tests_cant": "Each way out of a run has its own calls of free; a test runs a few of them, and leaks do not show in the output.", "anchors": ["skull/cli.c: main, handle_args, cleanup, bail", "skull/real_main.c: real_main, compile_file", "skull/pipeline.c: run_pipeline", "skull/codegen/backend.c: run_backend", "skull/codegen/shared.c: get_new_filename", "skull/codegen/c/write.c: write_file_c", "skull/codegen/llvm/write.c: emit_stage_1, emit_native_binary, check_directory, output_llvm_ir"]}
{"id": "C93", "title": "The memory of diagnostics is freed once", "statement": "Whatever diagnostics a run reports, in any number and order and for any number of files: no text of a message is used after it was freed, the texts of all messages are kept in order until they are written, and then all that was made for them, and every text that was given to them, is freed once, with and without -q.", "quantifier": "every sequence of reports by any of the calls in the compiler, with any contents", "why_tests_cant": "Messages own some of their texts and borrow others, which depends on the call; a test has to reach each call with a tool that checks memory.", "anchors": ["skull/common/errors.c: fmt_message, fmt_message_internal, message_stringify, get_location_str, get_error_msg, write_and_free_errors, write_error_msg", "skull/common/vector.c: vector_push, free_vector"]}
{"id": "C94", "title": "The values of string literals are there when they are read, and are freed once", "statement": "Whatever expressions are checked, in whatever state of the check, and whether they are accepted or the check stops somewhere in them: every string literal of an expression that is accepted has a text when a back end reads it, the texts of string literals are not used after they were freed, and freeing the expressions frees each text that was made once, and nothing that is not a text.", "quantifier": "every sequence of expressions with operators, calls and literals nested at any depth, every state of the check", "why_tests_cant": "The value is in a union with numbers, and an error can leave any part of an expression without one; a test has to stop at each place with a tool that checks memory.", "anchors": ["skull/semantic/expr.c: validate_expr, validate_const_expr, validate_func_call_params", "skull/semantic/types.c: eval_str", "skull/common/str.c: c32stombs", "skull/parse/ast_node.c: free_expr_node", "skull/codegen/c/expr.c: gen_expr_const_c", "skull/codegen/llvm/expr.c: gen_expr_const"]}
{"id": "C95", "title": "Variables and functions have names of their own, also for the linker", "statement": "In every source that is accepted, the name of each variable, parameter and function is a letter followed by letters, digits and underscores, and no word of the language; it is linked under this name, or under the name of the module, a dot and this name if it is exported; the program itself is linked under a dot and the name of the module, and no two of these kinds of names can be the same.", "quantifier": "every source text that is accepted, with functions, blocks and namespaces nested at any depth, and every path of a file that ends in .sk", "why_tests_cant": "Names go through the tokenizer, the parser and the check before they are written into C and LLVM modules; a test tries a few names in a few places.", "anchors": ["skull/parse/classify.c: classify_token, is_valid_identifier_str", "skull/semantic/assign.c: node_to_var", "skull/semantic/func.c: validate_stmt_func_decl_, validate_func_params", "skull/semantic/mangle.c: mangle_name", "skull/semantic/shared.c: setup_semantic_state"]}
