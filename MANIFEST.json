{
 "claims": [
  {
   "property": "C01",
   "status": "proved",
   "theorems": [
    "Skull.C01_tokenize_total",
    "Skull.C01_tokens_in_bounds"
   ],
   "note": "Totality, no undefined behaviour and tokens inside the source, for every text and both werror settings."
  },
  {
   "property": "C02",
   "status": "proved",
   "theorems": [
    "Skull.C02_no_text_lost",
    "Skull.C02_only_placeholder"
   ],
   "note": "Tiling of the source by tokens and blanks."
  },
  {
   "property": "C03",
   "status": "proved",
   "theorems": [
    "Skull.C03_line_numbers"
   ],
   "note": ""
  },
  {
   "property": "C04",
   "status": "partial",
   "theorems": [
    "Skull.C04_false",
    "Skull.C04_false_comment",
    "Skull.C04_columns_partial"
   ],
   "note": "False as stated (quoted literals do not advance the column); holds on lines with no quote or # before the token."
  },
  {
   "property": "C05",
   "status": "proved",
   "theorems": [
    "Skull.C05_sound",
    "Skull.C05_complete",
    "Skull.C05_reject",
    "Skull.C05_unambiguous"
   ],
   "note": "Against the grammar in Spec/Lexical."
  },
  {
   "property": "C06",
   "status": "partial",
   "theorems": [
    "Skull.C06_false",
    "Skull.C06_false_glued",
    "Skull.C06_false_hash",
    "Skull.C06_comment_partial"
   ],
   "note": "False as stated; holds for comments separated by blanks or delimiters."
  },
  {
   "property": "C07",
   "status": "partial",
   "theorems": [
    "Skull.C07_false",
    "Skull.C07_integers_partial"
   ],
   "note": "False as stated for `0_1` and other decimals that start with `0_`; an iff for every other word."
  },
  {
   "property": "C08",
   "status": "proved",
   "theorems": [
    "Skull.C08_floats"
   ],
   "note": ""
  },
  {
   "property": "C09",
   "status": "proved",
   "theorems": [
    "Skull.C09_identifiers",
    "Skull.C09_dotted",
    "Skull.C09_declarations"
   ],
   "note": ""
  },
  {
   "property": "C10",
   "status": "proved",
   "theorems": [
    "Skull.C10_text_only",
    "Skull.C10_words",
    "Skull.C10_words_only",
    "Skull.C10_defined",
    "Skull.C10_blank_source_ub"
   ],
   "note": "C10_blank_source_ub records the one source shape whose classification is undefined."
  },
  {
   "property": "C11",
   "status": "partial",
   "theorems": [
    "Skull.C11_false",
    "Skull.C11_value_partial",
    "Skull.C11_value_unique"
   ],
   "note": "False as stated: a literal with a base prefix followed by any character and an underscore is evaluated with undefined behaviour. Holds for every other literal."
  },
  {
   "property": "C12",
   "status": "proved",
   "theorems": [
    "Skull.C12_float_text"
   ],
   "note": "strtod itself is a parameter."
  },
  {
   "property": "C13",
   "status": "proved",
   "theorems": [
    "Skull.C13_string_value",
    "Skull.C13_round_trip"
   ],
   "note": "Every string token of every source, including several adjacent quoted parts."
  },
  {
   "property": "C14",
   "status": "partial",
   "theorems": [
    "Skull.C14_false",
    "Skull.C14_undefined_above_255",
    "Skull.C14_rune_partial"
   ],
   "note": "False as stated (`'\\n'b'c'` accepted; characters above U+00FF undefined); iff for single quoted parts."
  },
  {
   "property": "C15",
   "status": "partial",
   "theorems": [
    "Skull.C15_false",
    "Skull.C15_memory_partial"
   ],
   "note": "False as stated; exact condition for each literal kind."
  },
  {
   "property": "C16",
   "status": "partial",
   "theorems": [
    "Skull.C16_false",
    "Skull.C16_utf8_partial",
    "Skull.C16_reject",
    "Skull.C16_nul",
    "Skull.C16_fits",
    "Skull.C16_round_trip"
   ],
   "note": "False as stated: a file with a NUL byte is accepted and cut at the NUL. Holds for NUL free files; C16_nul says exactly what happens otherwise."
  },
  {
   "property": "C17",
   "status": "proved",
   "theorems": [
    "Skull.C17_first_write_wins",
    "Skull.C17_null_refused"
   ],
   "note": ""
  },
  {
   "property": "C18",
   "status": "proved",
   "theorems": [
    "Skull.C18_vector_is_list"
   ],
   "note": ""
  },
  {
   "property": "C19",
   "status": "proved",
   "theorems": [
    "Skull.C19_output_path",
    "Skull.C19_every_path",
    "Skull.C19_new_filename"
   ],
   "note": ""
  },
  {
   "property": "C20",
   "status": "partial",
   "theorems": [
    "Skull.C20_false",
    "Skull.C20_extension_partial",
    "Skull.C20_settings_partial",
    "Skull.C20_accepts"
   ],
   "note": "False as stated: `a.sk.txt` is accepted. An accepted path always contains .sk."
  },
  {
   "property": "C21",
   "status": "proved",
   "theorems": [
    "Skull.C21_linkage_name",
    "Skull.C21_entry_name",
    "Skull.C21_entry_name_empty",
    "Skull.C21_distinct",
    "Skull.C21_distinct_modules"
   ],
   "note": ""
  },
  {
   "property": "C22",
   "status": "proved",
   "theorems": [
    "Skull.C22_every_command_line",
    "Skull.C22_refused",
    "Skull.C22_accepted",
    "Skull.C22_no_source",
    "Skull.C22_info"
   ],
   "note": ""
  },
  {
   "property": "C23",
   "status": "proved",
   "theorems": [
    "Skull.C23_order",
    "Skull.C23_order_info"
   ],
   "note": "For command lines without -h and -v and with the files in the same order; with -h or -v the program stops without compiling in every order."
  },
  {
   "property": "C24",
   "status": "proved",
   "theorems": [
    "Skull.C24_parse_terminates",
    "Skull.C24_expression_progress",
    "Skull.C24_statement_progress"
   ],
   "note": ""
  },
  {
   "property": "C25",
   "status": "partial",
   "theorems": [
    "Skull.C25_parser_false",
    "Skull.C25_parser_false_more",
    "Skull.C25_parser_partial",
    "Skull.C25_expression_defined",
    "Skull.C25_semantic_false",
    "Skull.C25_semantic_false_more",
    "Skull.C25_semantic_partial",
    "Skull.C25_semantic_names_partial"
   ],
   "note": "False as stated: `x :=`, `export` or `x: Int` at the end of a file dereference a null pointer, and the check fails an assertion or reads out of bounds for a function or namespace used as a variable, an operator without operand, some literals (C15) and a function in a block behind a call. The parser is defined on every token list that ends in two newlines; tokenizing is always defined (C01); the check is defined on every parsed source text of fewer than 65536 tokens that has none of these causes."
  },
  {
   "property": "C26",
   "status": "proved",
   "theorems": [
    "Skull.C26_operands_in_order",
    "Skull.C26_whole_expression",
    "Skull.C26_expressions_accepted"
   ],
   "note": ""
  },
  {
   "property": "C27",
   "status": "partial",
   "theorems": [
    "Skull.C27_false",
    "Skull.C27_partial",
    "Skull.C27_two_operators"
   ],
   "note": "False as stated: `a is b + c * d` is read as `a is ((b + c) * d)`. Holds for every expression that meets the conditions SafePrec and SafeGroups of Spec/Grammar."
  },
  {
   "property": "C28",
   "status": "partial",
   "theorems": [
    "Skull.C28_false",
    "Skull.C28_partial"
   ],
   "note": "False as stated: `(1 + 2) * 3` is read as `1 + (2 * 3)`. Holds for every expression where no parentheses in front contain a looser operator than the one after them."
  },
  {
   "property": "C29",
   "status": "partial",
   "theorems": [
    "Skull.C29_parser_false",
    "Skull.C29_parser_partial",
    "Skull.C29_accepted_is_clean",
    "Skull.C29_check_false",
    "Skull.C29_check_partial"
   ],
   "note": "False as stated: a file ending in `if`, `elif`, `while` or `namespace` is refused silently, and so is a second namespace of the same name. Holds for the parser in every other case, and for the check unless a name with a dot is declared, two namespaces have the same name, or a name is declared again after a definition with a type (or an exported one) whose value could be a type."
  },
  {
   "property": "C30",
   "status": "partial",
   "theorems": [
    "Skull.C30_false",
    "Skull.C30_partial"
   ],
   "note": "False as stated: any token is taken for the equals sign."
  },
  {
   "property": "C31",
   "status": "partial",
   "theorems": [
    "Skull.C31_false",
    "Skull.C31_false_balance",
    "Skull.C31_partial"
   ],
   "note": "False as stated: a block at the beginning of a list of statements is hung on the statement after it. Holds when no list begins with a block."
  },
  {
   "property": "C32",
   "status": "proved",
   "theorems": [
    "Skull.C32_reference_types",
    "Skull.C32_builtin_names"
   ],
   "note": ""
  },
  {
   "property": "C33",
   "status": "proved",
   "theorems": [
    "Skull.C33_innermost",
    "Skull.C33_defined",
    "Skull.C33_declared"
   ],
   "note": "For every sequence of declarations and blocks."
  },
  {
   "property": "C34",
   "status": "partial",
   "theorems": [
    "Skull.C34_false",
    "Skull.C34_partial",
    "Skull.C34_params_partial"
   ],
   "note": "False as stated: an alias without a type (`X: Int = Bool`) may be declared again. Holds when no block is hung on a call statement (`f(1) { ... }`; such a block is not looked at, which is the counterexample) and no call has more than 65535 arguments."
  },
  {
   "property": "C35",
   "status": "partial",
   "theorems": [
    "Skull.C35_false",
    "Skull.C35_scopes",
    "Skull.C35_partial",
    "Skull.C35_function_partial",
    "Skull.C35_use_partial"
   ],
   "note": "C35_scopes has no restriction. For whole programs false as stated. Holds when no block is hung on a call statement (`f(1) { ... }`; such a block is not looked at, which is the counterexample) and no call has more than 65535 arguments."
  },
  {
   "property": "C36",
   "status": "partial",
   "theorems": [
    "Skull.C36_false",
    "Skull.C36_partial"
   ],
   "note": "False as stated: names from outside the namespace are found through it too. Exact meaning of dotted names otherwise."
  },
  {
   "property": "C37",
   "status": "partial",
   "theorems": [
    "Skull.C37_false",
    "Skull.C37_partial",
    "Skull.C37_assign_partial",
    "Skull.C37_every_statement_partial"
   ],
   "note": "False as stated. Holds when no block is hung on a call statement (`f(1) { ... }`; such a block is not looked at, which is the counterexample) and no call has more than 65535 arguments."
  },
  {
   "property": "C38",
   "status": "partial",
   "theorems": [
    "Skull.C38_false",
    "Skull.C38_partial"
   ],
   "note": "False as stated. Holds when no block is hung on a call statement (`f(1) { ... }`; such a block is not looked at, which is the counterexample) and no call has more than 65535 arguments."
  },
  {
   "property": "C39",
   "status": "partial",
   "theorems": [
    "Skull.C39_false",
    "Skull.C39_partial",
    "Skull.C39_unique"
   ],
   "note": "False as stated for calls with more than 65535 arguments only. An iff for every other expression, in every environment reached by declarations, blocks and namespaces."
  },
  {
   "property": "C40",
   "status": "partial",
   "theorems": [
    "Skull.C40_false",
    "Skull.C40_partial",
    "Skull.C40_short_programs"
   ],
   "note": "False as stated: a function with one parameter may be called with 65537 arguments. Holds for calls with fewer than 65536 arguments, so for every file with fewer tokens than that, outside blocks behind calls."
  },
  {
   "property": "C41",
   "status": "partial",
   "theorems": [
    "Skull.C41_false",
    "Skull.C41_partial"
   ],
   "note": "False as stated: a function without return type may return a value from within an `if`. Holds otherwise when functions contain neither functions nor external declarations before their returns (Plain)."
  },
  {
   "property": "C42",
   "status": "partial",
   "theorems": [
    "Skull.C42_false",
    "Skull.C42_partial"
   ],
   "note": "False as stated. Holds when no block is hung on a call statement (`f(1) { ... }`; such a block is not looked at, which is the counterexample) and no call has more than 65535 arguments."
  },
  {
   "property": "C43",
   "status": "partial",
   "theorems": [
    "Skull.C43_false",
    "Skull.C43_partial"
   ],
   "note": "False as stated. Holds when no block is hung on a call statement (`f(1) { ... }`; such a block is not looked at, which is the counterexample) and no call has more than 65535 arguments."
  },
  {
   "property": "C44",
   "status": "partial",
   "theorems": [
    "Skull.C44_false",
    "Skull.C44_partial"
   ],
   "note": "False as stated. Holds when no block is hung on a call statement (`f(1) { ... }`; such a block is not looked at, which is the counterexample) and no call has more than 65535 arguments."
  },
  {
   "property": "C45",
   "status": "partial",
   "theorems": [
    "Skull.C45_false",
    "Skull.C45_partial"
   ],
   "note": "False as stated: the check looks at the last function declared inside. Holds when functions are not nested (Plain)."
  },
  {
   "property": "C46",
   "status": "partial",
   "theorems": [
    "Skull.C46_false",
    "Skull.C46_partial"
   ],
   "note": "False as stated. Holds when no block is hung on a call statement (`f(1) { ... }`; such a block is not looked at, which is the counterexample) and no call has more than 65535 arguments."
  },
  {
   "property": "C47",
   "status": "partial",
   "theorems": [
    "Skull.C47_false",
    "Skull.C47_partial"
   ],
   "note": "False as stated. Holds when no block is hung on a call statement (`f(1) { ... }`; such a block is not looked at, which is the counterexample) and no call has more than 65535 arguments."
  },
  {
   "property": "C48",
   "status": "partial",
   "theorems": [
    "Skull.C48_false",
    "Skull.C48_partial",
    "Skull.C48_other_partial"
   ],
   "note": "False as stated: a warning inside a block outside of functions clears the error. Holds when no declaration in such a block is unused; warnings about conditions and types always lead to refusal."
  },
  {
   "property": "C49",
   "status": "partial",
   "theorems": [
    "Skull.C49_false",
    "Skull.C49_partial"
   ],
   "note": "False as stated: the bodies of functions are not looked at. An iff for every declaration outside of functions."
  },
  {
   "property": "C50",
   "status": "partial",
   "theorems": [
    "Skull.C50_false",
    "Skull.C50_partial"
   ],
   "note": "False as stated: names that are C keywords are not renamed. Holds for expressions whose names are C identifiers, integers above -2^63, finite floats, strings without quotes, backslashes and newlines, and calls with as many arguments as parameters."
  },
  {
   "property": "C51",
   "status": "partial",
   "theorems": [
    "Skull.C51_false",
    "Skull.C51_partial",
    "Skull.C51_program_partial"
   ],
   "note": "False as stated: strings are not escaped. An iff: the text denotes the string exactly if it has no quote, backslash or newline."
  },
  {
   "property": "C52",
   "status": "partial",
   "theorems": [
    "Skull.C52_false",
    "Skull.C52_false_overflow",
    "Skull.C52_power_partial",
    "Skull.C52_nonpositive_partial",
    "Skull.C52_terminates",
    "Skull.C52_shim"
   ],
   "note": "False as stated: for exponents below 1 the base is returned, and overflow is undefined instead of wrapping. Exact result for every exponent."
  },
  {
   "property": "C53",
   "status": "proved",
   "theorems": [
    "Skull.C53_equality",
    "Skull.C53_shim"
   ],
   "note": "Both the C text and the IR in shim.ll."
  },
  {
   "property": "C54",
   "status": "partial",
   "theorems": [
    "Skull.C54_false",
    "Skull.C54_partial",
    "Skull.C54_needs_safeL",
    "Skull.C54_needs_safeC",
    "Skull.C54_shift_differs"
   ],
   "note": "False as stated: 7 / 2 has no value in LLVM, 2147483647 + 1 none in C, and negative numbers are shifted differently. Holds for every expression without calls whose C text can be read, when its operations are ones that C does on the types it gives to constants, and that the LLVM code can do (exact divisions, positive exponents). The LLVM half is about code that is generated; that it is generated is C61."
  },
  {
   "property": "C55",
   "status": "partial",
   "theorems": [
    "Skull.C55_false",
    "Skull.C55_partial"
   ],
   "note": "False as stated: a break or continue after an inner loop branches to a null block. Holds for every accepted program in which no loop comes before a break or continue in the same loop; the theorem gives the layout of the whole module."
  },
  {
   "property": "C56",
   "status": "partial",
   "theorems": [
    "Skull.C56_false",
    "Skull.C56_partial"
   ],
   "note": "False as stated: return, break, continue or unreachable directly in a namespace. Holds for every other accepted program without functions in functions."
  },
  {
   "property": "C57",
   "status": "partial",
   "theorems": [
    "Skull.C57_false",
    "Skull.C57_format_partial",
    "Skull.C57_unlocated"
   ],
   "note": "False as stated: four diagnostics about something in the text have no location. The exact text of every other diagnostic, for all contents; formatting never runs out of arguments."
  },
  {
   "property": "C58",
   "status": "partial",
   "theorems": [
    "Skull.C58_false",
    "Skull.C58_sound_partial",
    "Skull.C58_complete_partial"
   ],
   "note": "False as stated (functions in functions). Both directions under conditions on the program."
  },
  {
   "property": "C59",
   "status": "partial",
   "theorems": [
    "Skull.C59_false",
    "Skull.C59_partial",
    "Skull.C59_result",
    "Skull.C59_needs_arith",
    "Skull.C59_needs_exact",
    "Skull.C59_needs_inits",
    "Skull.C59_needs_jumps",
    "Skull.C59_documented"
   ],
   "note": "False as stated. Holds, for whole programs and runs of any length, when the operations done are ones the code can do (exact divisions, positive exponents), no loop comes before a break or continue in the same loop, and no variable outside functions is set to a literal in a loop; each condition is proved to be needed. References and blocks behind calls have no meaning in the interpreter."
  },
  {
   "property": "C60",
   "status": "proved",
   "theorems": [
    "Skull.C60_declared"
   ],
   "note": "Declarations are symbols of the checked tree. The main function (symbol 0) has no declaration and is never named. Blocks behind calls are not checked and not part of the checked tree."
  },
  {
   "property": "C61",
   "status": "partial",
   "theorems": [
    "Skull.C61_false",
    "Skull.C61_partial"
   ],
   "note": "False as stated: is and isnt between references, or between calls without a value, run into an assertion. An iff: a program that is not empty gets code exactly when it has no such comparison (outside the blocks of external functions)."
  },
  {
   "property": "C62",
   "status": "proved",
   "theorems": [
    "Skull.C62_output",
    "Skull.C62_exit_code",
    "Skull.C62_codes"
   ],
   "note": "The world (files, LLVM, the linker) is a parameter. What the check accepts is C34 to C47 and C58."
  },
  {
   "property": "C63",
   "status": "partial",
   "theorems": [
    "Skull.C63_false",
    "Skull.C63_signal_false",
    "Skull.C63_delivered_partial"
   ],
   "note": "False as stated: with -o and no -c, -S, -E the object file goes to the file named and is removed after linking, and the binary goes elsewhere; a linker that is ended by a signal counts as success. Holds otherwise. What LLVM and the linker put into the files is not modelled."
  },
  {
   "property": "C64",
   "status": "proved",
   "theorems": [
    "Skull.C64_footprint",
    "Skull.C64_source_kept"
   ],
   "note": "Source paths end in .sk. What the linker touches is not modelled; the command it gets is C65."
  },
  {
   "property": "C65",
   "status": "partial",
   "theorems": [
    "Skull.C65_false",
    "Skull.C65_words_partial"
   ],
   "note": "False as stated: arguments are joined with spaces and read again by a shell, and names stand in double quotes. Holds when the names have no quote, dollar, backtick or backslash and the arguments after -- are plain characters."
  },
  {
   "property": "C66",
   "status": "partial",
   "theorems": [
    "Skull.C66_false",
    "Skull.C66_partial"
   ],
   "note": "False as stated: the silent refusals of C29. Holds for every other run that was not told to be quiet."
  },
  {
   "property": "C67",
   "status": "partial",
   "theorems": [
    "Skull.C67_false",
    "Skull.C67_partial"
   ],
   "note": "False as stated, for the reasons of C59. Holds for the arithmetic and the programs of C59_partial when no function is named exit or _start, for runs without -o whose linker is not ended by a signal. The constant folder and the passes of LLVM are parameters with stated conditions; making the object file and linking are trusted."
  },
  {
   "property": "C68",
   "status": "partial",
   "theorems": [
    "Skull.C68_false",
    "Skull.C68_partial"
   ],
   "note": "False as stated: a block in which no statement is written where it stands (comments, functions, aliases, or constants in a function only) makes the generator give a null pointer to %s. C68_partial says that this is the only way: it holds exactly for the other programs."
  },
  {
   "property": "C69",
   "status": "partial",
   "theorems": [
    "Skull.C69_false",
    "Skull.C69_partial"
   ],
   "note": "False as stated: characters of strings are written as they are, also newlines, quotes and backslashes; names may be keywords or types of C or have dots; floats may be inf or nan. Holds for programs whose names are C identifiers, whose constants have the text of C constants, and whose names for the linker stand for themselves in C strings. The grammar takes bool for a type although no header defines it (C23). The texts of the run time functions are not parsed. Debug information is left out."
  },
  {
   "property": "C70",
   "status": "partial",
   "theorems": [
    "Skull.C70_false",
    "Skull.C70_partial",
    "Skull.C70_result",
    "Skull.C70_documented",
    "Skull.C70_needs_fits",
    "Skull.C70_shared",
    "Skull.C70_needs_arith",
    "Skull.C70_needs_int"
   ],
   "note": "False as stated: variables of functions become C objects that are initialised once and shared by all calls (C70_needs_fits, C70_shared); 5 ^ 0 is 5 (C70_needs_arith). Holds with the arithmetic that C can do, for results that are an int, for programs that can be written in C (as in C69) and fit (Spec/CFits): no namespaces, functions outside of blocks and functions, no two functions or variables outside of blocks with the same name, names that stand in C for what they stand for in the source, no order of evaluation that matters, variables in functions that are not known constants with known values set anew, and no recursion through functions that have such variables."
  },
  {
   "property": "C71",
   "status": "partial",
   "theorems": [
    "Skull.C71_false",
    "Skull.C71_partial",
    "Skull.C71_both"
   ],
   "note": "False as stated: variables of functions are set to their values every time in LLVM, and once in C. Holds for programs that come to their end with the arithmetic of C59_partial and with that of C70_partial, under the conditions on programs of both; then both do come to their ends (C71_both)."
  },
  {
   "property": "C72",
   "status": "partial",
   "theorems": [
    "Skull.C72_false",
    "Skull.C72_partial",
    "Skull.C72_reads",
    "Skull.C72_source_partial"
   ],
   "note": "False as stated: strings are written as they are, and a string may have a newline and #line in it. Holds for programs whose strings, names and texts of floats have no newlines, and file names without quotes, backslashes and newlines. C72_reads: without the directives the file is the C program of C69. C72_source_partial: in source texts the names of variables and functions have no newlines, by C95."
  },
  {
   "property": "C73",
   "status": "partial",
   "theorems": [
    "Skull.C73_memory_safe",
    "Skull.C73_memory_safe_names",
    "Skull.C73_same_check",
    "Skull.C73_any_tree_false"
   ],
   "note": "For every source text whose check has no undefined behaviour of another kind (a failing assertion or null pointer; C73_memory_safe asks for that, C73_memory_safe_names has the conditions of C25 on the source text instead). It relies on the classifier: for a parameter with the name of a type (which no source text has) the name would be freed twice (C73_any_tree_false). Types of references, tokens, the syntax tree and strings that live in one function are left out."
  },
  {
   "property": "C74",
   "status": "partial",
   "theorems": [
    "Skull.C74_accepted_clean_partial",
    "Skull.C74_false"
   ],
   "note": "False as stated: when a program is refused, the linkage name of an exported thing whose name is taken stays, and so does the name of a namespace that is there already (C74_false). Holds for all accepted programs, for which nothing is freed before the clean-up either."
  },
  {
   "property": "C75",
   "status": "partial",
   "theorems": [
    "Skull.C75_false",
    "Skull.C75_false_more",
    "Skull.C75_partial",
    "Skull.C75_one_reading"
   ],
   "note": "False as stated: after a definition and after an external function the parser takes nothing but a newline (or, after a definition, the end of the file), so x := 1 # comment and if true { x := 1 } are refused. Holds for programs that have the newline. What trees expressions get is said in C26 to C28."
  },
  {
   "property": "C76",
   "status": "proved",
   "theorems": [
    "Skull.C76_memory_safe",
    "Skull.C76_memory_safe_lines",
    "Skull.C76_same_parse",
    "Skull.C76_tree_there"
   ],
   "note": "Every list of tokens for which the parser does not access a null pointer (C25; lists that end in two newlines are such: C76_memory_safe_lines). The parser that keeps the log makes the same tree and diagnostics as the one the other properties are about (C76_same_parse). The log has the allocations, all that is freed, writes to nodes that are there already and the accesses of the functions that free; reads in the parser are not in it. The memory of the tokenizer is C83; value.str is left out."
  },
  {
   "property": "C77",
   "status": "partial",
   "theorems": [
    "Skull.C77_false",
    "Skull.C77_refused_leak",
    "Skull.C77_accepted_clean_partial",
    "Skull.C77_blocks_leak",
    "Skull.C77_grammar_clean"
   ],
   "note": "False as stated: of two blocks one after the other, { noop } { noop }, the first is never freed. Holds for accepted lists of fewer than 65536 tokens in which no block begins right after another one, so for all programs of the grammar of C75 (C77_grammar_clean); where a block does, memory is lost (C77_blocks_leak, unless the brace is the name of a namespace). Refused programs lose memory, too (C77_refused_leak)."
  },
  {
   "property": "C78",
   "status": "partial",
   "theorems": [
    "Skull.C78_false",
    "Skull.C78_partial"
   ],
   "note": "False as stated: a function in a function may use variables of the outer one, for the check, but they are not there when it runs. Holds for programs without functions in functions, without blocks behind calls (f(1) { ... }, which mean nothing), and with less than 65536 arguments and parameters per function (the counters have 16 bits). References have no meaning in either interpreter."
  },
  {
   "property": "C79",
   "status": "partial",
   "theorems": [
    "Skull.C79_false",
    "Skull.C79_partial",
    "Skull.C79_c_partial"
   ],
   "note": "False as stated, as C67 and C70 are (5 ^ 0). Holds for binaries of the programs of C67_partial and C78_partial (C79_partial), and for C files of those of C70_partial and C78_partial (C79_c_partial)."
  },
  {
   "property": "C80",
   "status": "partial",
   "theorems": [
    "Skull.C80_false",
    "Skull.C80_partial",
    "Skull.C80_generates"
   ],
   "note": "False as stated: *p of a parameter reads from the wrong place without -g (readsParam). Holds for the programs of C59_partial, which are those that come to their end without references, with the arithmetic the code can do, and without a loop before a break and variables set to literals in loops outside functions. Whether there is code never depends on -g (C80_generates)."
  },
  {
   "property": "C81",
   "status": "proved",
   "theorems": [
    "Skull.C81_memory_clean",
    "Skull.C81_same"
   ],
   "note": "For all accepted programs of which C code can be written at all (C68 says which); the memory of FILEs is not part of it. C81_same says that the model with memory generates what the one of the other theorems generates."
  },
  {
   "property": "C82",
   "status": "partial",
   "theorems": [
    "Skull.C82_false",
    "Skull.C82_partial",
    "Skull.C82_needs_returns",
    "Skull.C82_needs_parameters",
    "Skull.C82_needs_values",
    "Skull.C82_needs_places",
    "Skull.C82_needs_comparisons",
    "Skull.C82_needs_flat",
    "Skull.C82_needs_jumps",
    "Skull.C82_needs_stays"
   ],
   "note": "False as stated: see C82_needs_returns and the other witnesses. Holds, with and without -g, for programs without functions in functions whose namespaces have no return, break or continue, whose jumps are those of C56, and for which soundT holds: expressions that are used have values, return gives what the function returns, no parameter has type Void, & is not used on constants of functions and nothing is compared with &x. What the verifier asks of metadata is left out."
  },
  {
   "property": "C83",
   "status": "proved",
   "theorems": [
    "Skull.C83_memory_clean",
    "Skull.C83_same"
   ],
   "note": "Every text. C83_same says that the tokens in memory are those of the model that the other theorems are about. The text itself is not a block of this model."
  },
  {
   "property": "C84",
   "status": "proved",
   "theorems": [
    "Skull.C84_same",
    "Skull.C84",
    "Skull.C84_accepted",
    "Skull.C84_described"
   ],
   "note": "For all accepted programs. What LLVM asks of debug information is in Spec/DebugInfo; names, files, types of variables and the compile unit are not modelled. C84_accepted puts it together with C82_partial; C84_described says which variables are described, and at which line."
  },
  {
   "property": "C85",
   "status": "partial",
   "theorems": [
    "Skull.C85_false",
    "Skull.C85_partial",
    "Skull.C85_assignment",
    "Skull.C85_condition"
   ],
   "note": "False as stated: the store of an assignment has the location of the definition of the variable (C85_assignment), and a condition that is just the name of a constant moves the call that computed it to its own line (C85_condition). Holds for all locations but those of stores, which are at the definition of their variable instead; and no instruction gets two locations if no condition is just a name."
  },
  {
   "property": "C86",
   "status": "proved",
   "theorems": [
    "Skull.C86_output",
    "Skull.C86_silent",
    "Skull.C86_lenient",
    "Skull.C86_strict",
    "Skull.C86_needs_quiet"
   ],
   "note": "For whole runs, from the command line. Leaving out --quiet is not part of the property: C86_needs_quiet is a program that is compiled with it and makes the compiler read a null pointer without it (a function in a block behind a call, see C25)."
  },
  {
   "property": "C87",
   "status": "proved",
   "theorems": [
    "Skull.C87",
    "Skull.C87_kinds"
   ],
   "note": "Every list of tokens, whether it is a program or not. The parser of the model also gives the diagnostics, whose texts are not compared, since they quote tokens."
  },
  {
   "property": "C88",
   "status": "partial",
   "theorems": [
    "Skull.C88_false",
    "Skull.C88_partial",
    "Skull.C88_meaning",
    "Skull.C88_run_partial"
   ],
   "note": "False as stated: eval_integer reads past the end of a number with a base prefix, and what it does there depends on whether the second character behind the number is an underscore (C88_false, with a program that is compiled in one layout and makes the compiler step over the end of a buffer in the other). Holds for all other texts. Diagnostics are compared by their codes, since their texts quote lines. With -g lines are part of the output."
  },
  {
   "property": "C89",
   "status": "partial",
   "theorems": [
    "Skull.C89_false",
    "Skull.C89_partial",
    "Skull.C89_distinct"
   ],
   "note": "False as stated: a Bool is described with one bit, which LLVM writes as no bytes (C89_false). C89_partial: exactly the types that do not end in Bool are described rightly. That descriptions are rounded down to whole bytes is taken from LLVM."
  },
  {
   "property": "C90",
   "status": "proved",
   "theorems": [
    "Skull.C90_vector",
    "Skull.C90_frozen",
    "Skull.C90_table"
   ],
   "note": "Blocks are numbers, and Realloc always moves. The code that uses the containers frees what it pops and what ht_add does not take. Keys are in blocks of the values, in constants, or (for lookups) in blocks of the caller."
  },
  {
   "property": "C91",
   "status": "proved",
   "theorems": [
    "Skull.C91"
   ],
   "note": "Every sequence of calls, not only those that the check makes. That two types are the same exactly if they are spelled the same is C32."
  },
  {
   "property": "C92",
   "status": "partial",
   "theorems": [
    "Skull.C92_same",
    "Skull.C92_safe",
    "Skull.C92_partial",
    "Skull.C92_false"
   ],
   "note": "False: -o or arguments after -- are not freed if the settings contradict each other or there is no source, and the arguments after -- are not freed unless a linking command is run. Proved: never a use after free or a double free, and everything is freed exactly in the other runs. Tokens, tree and states are one block each here (their memory is C73, C74, C76, C77, C81 and C83); memory of LLVM and of messages is left out."
  },
  {
   "property": "C93",
   "status": "proved",
   "theorems": [
    "Skull.C93",
    "Skull.C93_kept"
   ],
   "note": "Every call of FMT_ERROR and FMT_WARN in the compiler (diagSites). That callers do not free what they give away is C73 (which has an exception); borrowed texts are not modelled."
  },
  {
   "property": "C94",
   "status": "proved",
   "theorems": [
    "Skull.C94_same",
    "Skull.C94"
   ],
   "note": "For expressions on which the check has no undefined operation. That a statement is checked at most once is not part of it."
  },
  {
   "property": "C95",
   "status": "proved",
   "theorems": [
    "Skull.C95",
    "Skull.C95_apart"
   ],
   "note": "For files whose name ends in .sk and whose length, with that of the source, is less than 2^64. Names of types and namespaces are not part of it: an exported alias is named export."
  }
 ]
}