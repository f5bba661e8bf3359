{"id": "C01", "title": "The dynamic array behaves like a list", "statement": "Starting from an empty vector, after any sequence of push, pop (on a non-empty vector), fill, set, insert, erase and extend calls, reading the vector back by index and asking its size gives exactly what the same operations on an ordinary finite sequence would give; out-of-range indices read as NULL and out-of-range writes change nothing.", "quantifier": "every finite sequence of vector calls with every argument, every element type", "why_tests_cant": "A unit test runs a handful of fixed sequences; agreement after every history is an induction over unboundedly many of them.", "anchors": ["src/vector/vector.c: new_vector, vector_push, vector_pop, vector_fill, vector_set, vector_insert, vector_erase, vector_at, vector_size, vector_extend, vector_copy"]}
{"id": "C02", "title": "The dynamic array never touches memory outside its allocation", "statement": "In any history of vector calls, every slot the implementation reads or writes lies inside the currently allocated block, the block never has zero slots, and the block is never smaller than the number of live items; the only call that can violate this is popping an empty vector.", "quantifier": "every finite sequence of vector calls", "why_tests_cant": "Heap overflows are silent for most sequences, so passing tests do not show their absence.", "anchors": ["src/vector/vector.c: vector_push, vector_pop, vector_fill, vector_insert"]}
{"id": "C03", "title": "The hash map returns the last value written and not removed", "statement": "After any sequence of add and remove calls, looking a key up yields the value of the most recent add of that key if no remove of it came later, and nothing otherwise.", "quantifier": "every finite history of add/remove calls over every key, value, hash function with non-negative results", "why_tests_cant": "The failure needs a collision, a removal and a re-insertion in a particular order; random unit tests do not hit it and no finite set of histories settles it.", "anchors": ["src/map/map.c: map_add, map_remove, map_get_with_default, update_capacity"]}
{"id": "C04", "title": "Hash map probing stays inside the table and terminates", "statement": "For keys whose hash is non-negative, in any history every slot probed by lookup, insert, remove and resize is inside the table and every probe loop finishes; the table always has room for one more entry.", "quantifier": "every finite history of map calls, every key", "why_tests_cant": "Termination and bounds for all histories cannot be observed by running some of them.", "anchors": ["src/map/map.c: map_get_with_default, map_add, map_remove, update_capacity", "src/common/type.c: hash_integer, hash_string"]}
{"id": "C05", "title": "Set operations compute the mathematical set operations", "statement": "For sets built by any history, union, intersection, difference and equality answer exactly as for mathematical sets of the elements; issubset(set, other) answers whether set is contained in other.", "quantifier": "every pair of sets reachable by adds, every element", "why_tests_cant": "Algebraic laws over all sets.", "anchors": ["src/set/set.c: set_union, set_intersection, set_difference, set_issubset, set_equals"]}
{"id": "C06", "title": "String hashing is a safe table index", "statement": "Hashing any string gives a non-negative number below 587, so it can be reduced to a valid table index.", "quantifier": "every byte string", "why_tests_cant": "Only strings with bytes above 127 misbehave; the quantifier is over all strings.", "anchors": ["src/common/type.c: hash_string", "src/map/map.c: map_add"]}
{"id": "C07", "title": "Lexing always terminates", "statement": "On every file content, tokenising finishes, with either a token list ending in end-of-file or an error message.", "quantifier": "every byte string", "why_tests_cant": "A hang is the absence of an answer; tests only cover inputs that finish.", "anchors": ["src/lexer/lexer.c: lexer_read_ctokens", "src/lexer/reader.c: read_character_constant, read_string_literal"]}
{"id": "C08", "title": "Punctuators are read by maximal munch", "statement": "Whenever the remaining input starts with some punctuator of the language, the token produced is the longest punctuator that is a prefix of the input, and exactly its characters are consumed.", "quantifier": "every remaining input", "why_tests_cant": "All concatenations of operator characters.", "anchors": ["src/lexer/reader.c: read_punctuator", "src/lexer/util.c: new_punctuator_map"]}
{"id": "C09", "title": "Identifiers and keywords are read as whole words", "statement": "If the input starts with a letter or underscore, one token is produced from the longest run of letters, digits and underscores; it is a keyword token exactly when the run spells a keyword and otherwise an identifier carrying exactly that spelling.", "quantifier": "every input", "why_tests_cant": "All spellings, including those having a keyword as a prefix.", "anchors": ["src/lexer/reader.c: read_keyword_or_identifier", "src/lexer/util.c: new_keyword_map, new_nondigit_set"]}
{"id": "C10", "title": "Integer constants have the value they spell", "statement": "A decimal, octal or hexadecimal digit string whose value fits the largest type is read as exactly that number, and the characters consumed are exactly the digits and the suffix.", "quantifier": "every digit string in every base", "why_tests_cant": "The set of digit strings is unbounded.", "anchors": ["src/lexer/reader.c: read_integer_constant, read_decimal_integer_constant, read_octal_integer_constant, read_hexadecimal_integer_constant"]}
{"id": "C11", "title": "Integer constants get the type the C standard assigns", "statement": "The type of an integer constant is the first type in the C11 6.4.4.1 list for its base and suffix that can represent its value.", "quantifier": "every value, base and suffix", "why_tests_cant": "Boundaries at 2^31, 2^32, 2^63 for every base/suffix pair and all values between.", "anchors": ["src/lexer/reader.c: read_integer_constant"]}
{"id": "C12", "title": "Escape sequences in string literals decode as in C", "statement": "A string literal is decoded to the bytes C assigns to it: plain characters stand for themselves, simple escapes, up to three octal digits, and hexadecimal digits stand for the coded byte; a terminating NUL is appended.", "quantifier": "every literal body of printable ASCII characters and escapes", "why_tests_cant": "All sequences of characters and escapes, including an octal escape followed by a digit.", "anchors": ["src/lexer/reader.c: read_string_literal, read_escape_sequence"]}
{"id": "C13", "title": "Printing a string and reading it back is the identity", "statement": "The text the compiler prints in its .ascii directive for a string, when read back by the rules for string literals, denotes the same bytes.", "quantifier": "every string of bytes", "why_tests_cant": "Round-trip over all strings, including escapes adjacent to digits.", "anchors": ["src/literal/sliteral.c: display_string", "src/lexer/reader.c: read_string_literal"]}
{"id": "C14", "title": "Token boundaries do not depend on white space", "statement": "Writing any token list separated by any non-empty white space and lexing it yields the same token list.", "quantifier": "every list of tokens, every choice of separators", "why_tests_cant": "Unbounded lists.", "anchors": ["src/lexer/lexer.c: lexer_read_ctokens", "src/lexer/reader.c: skip_white_spaces"]}
{"id": "C15", "title": "Expression parsing follows C precedence and associativity", "statement": "For every expression tree, printing it with parentheses only where C's grammar requires them and parsing the text gives the same tree back and consumes exactly that text.", "quantifier": "every expression tree over the binary, conditional, assignment, cast-free unary and postfix operators", "why_tests_cant": "Trees are unbounded; precedence mistakes appear only for particular operator pairs and nestings.", "anchors": ["src/parser/expression.c: parse_assignment_expr .. parse_primary_expr"]}
{"id": "C16", "title": "Parsing time is polynomial", "statement": "The number of steps to parse an expression grows polynomially with its length.", "quantifier": "every expression", "why_tests_cant": "An asymptotic statement.", "anchors": ["src/parser/expression.c: parse_assignment_expr, parse_primary_expr"]}
{"id": "C17", "title": "Statements parse back, else binds to the nearest if", "statement": "For every statement tree, printing it in C syntax (with braces only where the dangling else requires) and parsing gives the same tree.", "quantifier": "every statement tree", "why_tests_cant": "Unbounded nesting.", "anchors": ["src/parser/statement.c"]}
{"id": "C18", "title": "The parser never reads past the end-of-file token", "statement": "On any token list that ends with an end-of-file token and has no other, the parser reads only existing tokens whatever the errors on the way.", "quantifier": "every token list ending in EOF", "why_tests_cant": "Memory safety over all malformed inputs.", "anchors": ["src/parser/expression.c", "src/parser/declaration.c", "src/parser/statement.c", "src/parser/external.c"]}
{"id": "C19", "title": "Type specifiers may come in any order", "statement": "A list of type-specifier keywords denotes a type exactly when it is a permutation of one of the C spellings supported, and then the type does not depend on the order.", "quantifier": "every list of type specifiers", "why_tests_cant": "All permutations and all lengths; depends on the hand-written in-place sort being correct.", "anchors": ["src/resolver/utils.c: sort_ast_type", "src/resolver/declaration.c: resolve_type_specifier_list"]}
{"id": "C20", "title": "Declarators denote the type C says", "statement": "For every type built from pointers, arrays and functions over a base type, parsing C's declarator spelling of it and resolving it gives back that type.", "quantifier": "every derived type", "why_tests_cant": "Inside-out declarators nest without bound.", "anchors": ["src/parser/declaration.c: parse_declarator_common, parse_direct_declarator_common", "src/resolver/declaration.c: resolve_declarator", "src/dtype/dtype.c: dtype_connect"]}
{"id": "C21", "title": "Struct layout is a valid C layout", "statement": "For every member list, offsets increase, members do not overlap, each member's offset is a multiple of its alignment, the struct's size is a multiple of its alignment and large enough, with the least padding possible.", "quantifier": "every non-empty list of members with positive size/alignment types", "why_tests_cant": "All member lists.", "anchors": ["src/dtype/struct.c: new_unnamed_dstruct, dstruct_define_member"]}
{"id": "C22", "title": "Type equality is an equivalence relation and copying preserves it", "statement": "Comparing types is reflexive, symmetric and transitive, a copied type equals the original, and equal types have equal size and alignment.", "quantifier": "all types", "why_tests_cant": "Quantifies over all pairs and triples of unbounded type trees.", "anchors": ["src/dtype/dtype.c: dtype_equals, dtype_copy, dtype_nbytes, dtype_alignment"]}
{"id": "C23", "title": "Usual arithmetic conversions follow the C standard", "statement": "For every pair of operand types the common type of a binary operator is the one C11 6.3.1.8 prescribes.", "quantifier": "every pair of integer types the language has", "why_tests_cant": "The complete table against the standard's wording, independent of the code's case analysis.", "anchors": ["src/resolver/conversion.c: perform_usual_arithmetic_conversion, perform_integer_promotion"]}
{"id": "C24", "title": "Names resolve to the innermost enclosing declaration", "statement": "At any point in any program of nested scopes, looking a name up yields the declaration of that name in the innermost open scope declaring it, declaring a name twice in one scope is refused, and leaving a scope restores exactly what was visible before it.", "quantifier": "every well-bracketed history of enter/exit/declare", "why_tests_cant": "All histories.", "anchors": ["src/symtab/symtab.c: symboltable_search, symboltable_define_*, symboltable_enter_scope, symboltable_exit_scope"]}
{"id": "C25", "title": "Local variables never share stack memory", "statement": "Any two local variables of a function occupy disjoint byte ranges of its frame and every range lies inside the frame size reserved at function entry, whatever the nesting of blocks.", "quantifier": "every history of scopes and declarations in a function", "why_tests_cant": "All functions.", "anchors": ["src/symtab/symtab.c: symboltable_define_memory, symboltable_enter_scope, symboltable_exit_scope", "src/immcgen/external.c"]}
{"id": "C26", "title": "Local variables are aligned for their type", "statement": "Each local variable's frame offset is a multiple of the alignment of its type.", "quantifier": "every history of declarations", "why_tests_cant": "All functions.", "anchors": ["src/symtab/symtab.c: symboltable_define_memory"]}
{"id": "C27", "title": "Enumerators count up", "statement": "In an enumerator list each enumerator without a value is one more than its predecessor (the first is zero) and each with a value has that value; duplicates are refused.", "quantifier": "every enumerator list", "why_tests_cant": "All lists.", "anchors": ["src/resolver/declaration.c: resolve_enumerator_list, resolve_enumerator"]}
{"id": "C28", "title": "Partial initialisers are accepted and zero-fill", "statement": "For every array or struct type and every initialiser list not longer than the type, initialisation succeeds, assigns the listed values to the leading elements in order and zero to the rest.", "quantifier": "every aggregate type and initialiser list", "why_tests_cant": "All nestings of aggregates and brace structures.", "anchors": ["src/resolver/declaration.c: resolve_initializer, resolve_aggregate_initializer, resolve_zero_initializer"]}
{"id": "C29", "title": "A compound assignment evaluates its left side once", "statement": "E1 op= E2 performs the side effects of E1 exactly once.", "quantifier": "every left-hand side expression", "why_tests_cant": "Semantic statement about all expressions and states.", "anchors": ["src/resolver/expression.c: resolve_assignment_expr"]}
{"id": "C30", "title": "Pointer differences are signed", "statement": "p - q is the signed number of elements between the pointers, also when q is after p.", "quantifier": "every pair of pointers into one array, every element size", "why_tests_cant": "All pairs.", "anchors": ["src/resolver/expression.c: resolve_subtractive_expr", "src/immcgen/expression.c", "src/x64gen/arithinst.c"]}
{"id": "C31", "title": "Right shift of unsigned values is logical", "statement": "x >> n for unsigned x is floor(x / 2^n).", "quantifier": "every value and shift count below the width", "why_tests_cant": "All values.", "anchors": ["src/immcgen/expression.c: gen_rshift", "src/x64gen/shrotinst.c"]}
{"id": "C32", "title": "Every jump in generated intermediate code has exactly one target", "statement": "In the intermediate code of any function each label is defined at most once and each jump's label is defined in the same function.", "quantifier": "every function body", "why_tests_cant": "All nestings of loops, switches, conditionals and logical operators.", "anchors": ["src/immcgen/statement.c", "src/immcgen/expression.c", "src/immcgen/immcgen.c: next_label_id"]}
{"id": "C33", "title": "Virtual registers are defined before use and not redefined", "statement": "In generated intermediate code, each virtual register read has been written earlier on the path and straight-line code writes each virtual register only once.", "quantifier": "every expression", "why_tests_cant": "All expressions.", "anchors": ["src/immcgen/expression.c", "src/immcgen/util.c"]}
{"id": "C34", "title": "Intermediate code of expressions computes the C value", "statement": "Running the intermediate code generated for an expression leaves the C value of the expression in its result register and has the C side effects on memory, including short-circuit evaluation and the conditional operator.", "quantifier": "every expression and every initial memory", "why_tests_cant": "A simulation over unbounded expressions and all states.", "anchors": ["src/immcgen/expression.c", "src/immcgen/util.c"]}
{"id": "C35", "title": "Conditions branch on the C truth value", "statement": "Branch code generated for a condition jumps exactly when the condition has the requested truth value.", "quantifier": "every condition, both polarities, every state", "why_tests_cant": "All operator/polarity/operand value combinations.", "anchors": ["src/immcgen/util.c: append_child_jmp_cond_immcode, get_cjmp_inst_type"]}
{"id": "C36", "title": "Control statements execute in C order", "statement": "Running the code generated for if, while, for, switch, break, continue, return and compound statements executes the same sequence of effects as the C statement.", "quantifier": "every statement, every initial state", "why_tests_cant": "Simulation over all programs and all numbers of iterations.", "anchors": ["src/immcgen/statement.c"]}
{"id": "C37", "title": "Local initialisers write each element at its own offset", "statement": "Initialising a local aggregate stores every leaf value at the byte offset of that leaf in the type's layout.", "quantifier": "every aggregate type", "why_tests_cant": "All nestings of arrays and structs.", "anchors": ["src/immcgen/declaration.c"]}
{"id": "C38", "title": "Live virtual registers never share a physical register", "statement": "If two virtual registers are live at the same instruction then the allocator gives them different physical registers, all below the register count.", "quantifier": "every instruction sequence and every number of registers", "why_tests_cant": "All programs.", "anchors": ["src/regalloc/regalloc.c: determine_allocation"]}
{"id": "C39", "title": "Register allocation succeeds whenever enough registers exist", "statement": "If at no point more virtual registers are live than there are physical registers, allocation assigns a register to each; and when there are not enough the allocator still produces code (it spills) rather than crashing.", "quantifier": "every instruction sequence", "why_tests_cant": "All programs.", "anchors": ["src/regalloc/regalloc.c: determine_allocation, update_liveseqs"]}
{"id": "C40", "title": "Liveness analysis is sound", "statement": "If some execution path from an instruction reaches a read of a virtual register before a write of it, the analysis reports it live there.", "quantifier": "every control-flow graph", "why_tests_cant": "All graphs and all paths; the analysis is a fixpoint iteration.", "anchors": ["src/regalloc/regalloc.c: basic block construction, liveness iteration"]}
{"id": "C41", "title": "Register allocation preserves behaviour", "statement": "Running the code after allocation has the same memory effects and results as running it before.", "quantifier": "every instruction sequence accepted by the allocator, every state", "why_tests_cant": "Simulation over all programs and states.", "anchors": ["src/regalloc/regalloc.c"]}
{"id": "C42", "title": "Binary instructions compute the right machine value", "statement": "The machine code emitted for an arithmetic, bitwise, shift or negation instruction leaves the operation's result, at the destination's width, in the destination register and leaves every other allocated register that is still live unchanged.", "quantifier": "every instruction, every assignment of registers, every width and signedness, every machine state", "why_tests_cant": "All 64-bit states times all operand shapes.", "anchors": ["src/x64gen/arithinst.c", "src/x64gen/logicinst.c", "src/x64gen/shrotinst.c", "src/x64gen/util.c: append_mov_code"]}
{"id": "C43", "title": "Width conversions preserve the value", "statement": "The move emitted to convert a register from one integer width to another zero-extends unsigned sources, sign-extends signed sources and truncates when narrowing.", "quantifier": "every pair of widths, signedness, registers, values", "why_tests_cant": "All values.", "anchors": ["src/x64gen/util.c: append_mov_code"]}
{"id": "C44", "title": "Comparison instructions yield 0 or 1 correctly", "statement": "The code emitted for a comparison leaves 1 in the destination if the relation holds for the operands (signed or unsigned as typed) and 0 otherwise.", "quantifier": "every comparison, register assignment, value", "why_tests_cant": "All values and all register assignments.", "anchors": ["src/x64gen/bitinst.c: gen_setcmp_common_x64code"]}
{"id": "C45", "title": "Calls pass the n-th argument to the n-th parameter", "statement": "For any number of arguments, the value stored as argument i by the caller is the value loaded as parameter i by the callee, following the System V calling convention.", "quantifier": "every argument count and every values", "why_tests_cant": "Unbounded number of arguments.", "anchors": ["src/x64gen/ctrlinst.c: gen_call, gen_prep, gen_clean", "src/x64gen/datainst.c: gen_starg, gen_ldarg"]}
{"id": "C46", "title": "Calls preserve the caller's live registers and frame", "statement": "After a call instruction sequence every register that was live across the call and the frame pointer hold the values they had before, and the stack pointer is where it was.", "quantifier": "every set of live registers, every call", "why_tests_cant": "All subsets of live registers.", "anchors": ["src/x64gen/ctrlinst.c: gen_call"]}
{"id": "C47", "title": "The stack is 16-byte aligned at every call", "statement": "At each emitted call instruction the stack pointer is a multiple of 16.", "quantifier": "every function, every nesting of calls in arguments", "why_tests_cant": "All call nestings.", "anchors": ["src/x64gen/ctrlinst.c: gen_prep, gen_call", "src/x64gen/x64gen.c: gen_function"]}
{"id": "C48", "title": "Functions return to their caller with saved state intact", "statement": "From entry to return, an emitted function restores the stack pointer, frame pointer and every callee-saved register it modifies, and jumps to the return address.", "quantifier": "every function body that itself is balanced", "why_tests_cant": "All frame sizes and numbers of saved registers.", "anchors": ["src/x64gen/x64gen.c: gen_function_x64code", "src/x64gen/ctrlinst.c: gen_enter, gen_leave"]}
{"id": "C49", "title": "Local string initialisation writes exactly the array", "statement": "Initialising a local character array from a string writes exactly the bytes of the (zero padded) string to the array and no other byte of memory.", "quantifier": "every string and array size", "why_tests_cant": "All strings and sizes.", "anchors": ["src/x64gen/datainst.c: gen_str_x64code"]}
{"id": "C50", "title": "Static data has the declared size and bytes", "statement": "The data directives emitted for a global object occupy exactly the size of its type and spell its initial value.", "quantifier": "every type and initialiser", "why_tests_cant": "All aggregates with padding.", "anchors": ["src/immcgen/declaration.c", "src/x64gen/data.c"]}
{"id": "C51", "title": "Register names printed are the x86-64 ones", "statement": "Each register/width pair is printed with the name the assembler knows for it.", "quantifier": "every register and width", "why_tests_cant": "Complete table; only a full comparison finds a misspelt entry.", "anchors": ["src/x64/register.c: BREG_NAMES, WREG_NAMES, LREG_NAMES, QREG_NAMES"]}
{"id": "C52", "title": "No assembly is written for rejected programs", "statement": "If any stage reports an error the exit status is 1 and the output file is not created or changed; otherwise the status is 0 and the whole assembly has been written.", "quantifier": "every stage outcome and file state", "why_tests_cant": "All failing stages and prior contents.", "anchors": ["src/main.c: main"]}
{"id": "C53", "title": "Live-range cursors agree with the live ranges", "statement": "While instructions are emitted in order, asking whether a physical register is alive at the current instruction answers exactly whether some virtual register assigned to it is live across that instruction.", "quantifier": "every allocation and instruction index", "why_tests_cant": "All programs.", "anchors": ["src/liveseq/liveseq.c: liveseq_goto_next, liveseq_isalive"]}
{"id": "C54", "title": "Casts of constants and values wrap like C", "statement": "Converting a constant to an integer type yields the value modulo the type's width, and a chain of casts is applied cast by cast.", "quantifier": "every value and every chain of casts", "why_tests_cant": "All chains.", "anchors": ["src/immcgen/util.c: create_dtyped_iliteral, gen_child_int_immcope"]}
{"id": "C55", "title": "Dereferencing uses the pointer expression's own register", "statement": "When code is generated for *E, the memory address used is the value of E.", "quantifier": "every pointer expression", "why_tests_cant": "All shapes of E.", "anchors": ["src/immcgen/util.c: gen_child_ptr_immcope"]}
{"id": "C56", "title": "Distinct duplicate case labels are refused and others accepted", "statement": "Within one switch, a case label is refused exactly when an earlier case of the same switch has the same value; nested switches do not interfere; break and continue are accepted exactly inside their constructs.", "quantifier": "every statement tree", "why_tests_cant": "All nestings.", "anchors": ["src/resolver/statement.c"]}
{"id": "C57", "title": "The assembler reads back exactly the bytes of a string literal", "statement": "The text printed in the .ascii directive for a string literal, decoded by the GNU assembler's escape rules, is exactly the literal's bytes.", "quantifier": "every string of bytes", "why_tests_cant": "All byte strings; an escape the assembler does not know silently changes the program's data.", "anchors": ["src/literal/sliteral.c: sliteral_display_string", "src/x64/data.c: x64data_tostring"]}
{"id": "C58", "title": "No part of the source is silently ignored", "statement": "When tokenising succeeds, the file is exactly the concatenation of the spellings of the returned tokens, in order, and white space between them.", "quantifier": "every file content", "why_tests_cant": "Universal over file contents; ignored input produces no failure to observe.", "anchors": ["src/freader/freader.c: freader_read", "src/lexer/lexer.c: new_lexer, lexer_read_ctokens", "src/lexer/reader.c"]}
{"id": "C59", "title": "An inner declaration hides a typedef name", "statement": "A declaration in a block, a parameter or a struct member may use the name of a typedef from an enclosing scope; from there to the end of its scope the name is the new entity, and a typedef name declared in a block is unknown after it.", "quantifier": "every program", "why_tests_cant": "Whether a token is a type name depends on every declaration before it.", "anchors": ["src/parser/util.c: ctoken_is_type_specifier", "src/parser/declaration.c: parse_decl_specifiers", "src/parser/statement.c: parse_compound_stmt"]}
{"id": "C60", "title": "The resolver answers every program", "statement": "For every syntax tree the parser can produce, the resolver ends with a typed tree or with diagnostics; it does not read through NULL, reach an 'unreachable' exit, or run forever.", "quantifier": "every program the parser accepts", "why_tests_cant": "All programs; the faults need rare combinations of tags, typedefs and scopes.", "anchors": ["src/resolver/declaration.c", "src/resolver/expression.c", "src/resolver/statement.c", "src/resolver/resolver.c: resolve_ast"]}
{"id": "C61", "title": "Only valid derived types are accepted, with the declared sizes", "statement": "A declaration is accepted exactly if its type obeys C's constraints (no arrays of functions or of incomplete types, no functions returning functions or arrays, positive sizes), and an accepted array has the size written.", "quantifier": "every derived type", "why_tests_cant": "All nestings of declarators, all sizes.", "anchors": ["src/resolver/declaration.c: resolve_declarator, resolve_parameter_list, resolve_init_declarator"]}
{"id": "C62", "title": "Every resolved program is translated", "statement": "For every typed tree that the resolver builds without diagnostics, the intermediate code generator produces code; it does not end in an 'unreachable' exit and does not read through NULL.", "quantifier": "every program the resolver accepts", "why_tests_cant": "All programs; the faults need particular combinations of casts, initialisers and expression positions.", "anchors": ["src/immcgen/immcgen.c: immcgen_generate_immcode", "src/immcgen/declaration.c: gen_global_scalar_initializer_immcode", "src/immcgen/expression.c"]}
{"id": "C63", "title": "Printing stays inside its buffers", "statement": "For every program that all stages accept, each line of assembly is built within the fixed-size buffers of the printing functions, so that printing produces text.", "quantifier": "every accepted program", "why_tests_cant": "Names and strings of every length; an overflow of a few bytes often goes unnoticed.", "anchors": ["src/x64/ope.c: x64ope_tostring", "src/x64/inst.c: x64inst_tostring", "src/x64/data.c: x64data_tostring", "src/x64/x64.c: x64_tostring"]}
{"id": "C64", "title": "A function still does what C says after register allocation", "statement": "If register allocation accepts the code generated for a function, the code it makes of it, run on the physical registers with whatever contents, stores the arguments in the parameters, executes the body as C says, and ends with the value returned; it does not end if the execution does not.", "quantifier": "every function, argument values, memory, number of registers", "why_tests_cant": "All functions and states; a clobbered register shows only for some values.", "anchors": ["src/immcgen/statement.c", "src/immcgen/expression.c", "src/regalloc/regalloc.c: allocate_registers"]}
{"id": "C65", "title": "The machine code of a function does what C says", "statement": "Entered at its label as the System V calling convention says (arguments in registers and on the stack, stack pointer aligned, enough stack below), the machine code made of a function by code generation, register allocation and translation to x86-64 executes the function as C says: it comes back to the return address with the stack pointer restored, rbx, rbp and r12-r15 unchanged, memory outside its own part of the stack and the outside world as in C, and the returned value in rax; functions it calls get their arguments as the convention says; if the C execution never ends, neither does the machine code. Precondition: the function does not access its saved registers, return address or spilled values through pointers.", "quantifier": "every function, argument values, memory contents, behaviour of called functions, program around it", "why_tests_cant": "All functions and all machine states; tests run a handful of programs.", "anchors": ["src/immcgen/statement.c", "src/regalloc/regalloc.c", "src/x64gen/x64gen.c", "src/x64gen/datainst.c", "src/x64gen/ctrlinst.c"]}
{"id": "C66", "title": "Expressions get the types and conversions of C, and wrong ones are refused", "statement": "For every expression of the grammar and every state of the symbol tables, the resolver ends; it returns a tree exactly if C allows the expression (operand types, lvalues, number and types of arguments, members, type names), and then the tree with the types and all conversions that C prescribes (decay, integer promotions, usual arithmetic conversions, assignment conversions), string literals declared and numbered in the order of the text; otherwise it reports errors and returns none.", "quantifier": "every expression of the grammar (any depth), every set of names and tags in scope", "why_tests_cant": "Expressions nest without bound and the types in scope are unbounded; tests try single operators on a few types.", "anchors": ["src/resolver/expression.c", "src/resolver/conversion.c", "src/resolver/utils.c", "src/resolver/declaration.c", "src/common/type.c"]}
{"id": "C67", "title": "Translation units C allows are accepted with the typed tree of C, others are refused", "statement": "For every translation unit of the grammar, text of it is parsed and resolved; it is accepted exactly if C allows it (scopes and redeclarations, struct and enum definitions, complete types, initialisers, labels, break/continue/return, parameters, and all expressions), and then the result is the typed unit that C prescribes: declared types, struct layout, enumerator values, initialisers with braces and zeros filled in, conversions at return, conditions and switches, string literals as numbered declarations.", "quantifier": "every translation unit: any number of declarations and functions, any nesting of statements, types and initialisers", "why_tests_cant": "Units are unbounded; tests resolve a few hand written functions, and rarely ones that must be refused.", "anchors": ["src/resolver/external.c", "src/resolver/statement.c", "src/resolver/declaration.c", "src/resolver/expression.c", "src/common/type.c"]}
{"id": "C68", "title": "The machine code of a whole program does what C says", "statement": "Take a source text the compiler accepts, its assembly code placed in memory with every function label at the address of its name and every call's return address right after it, and functions outside the program that obey the calling convention. Entered at one of its functions as the System V calling convention says, the processor, running item by item through the code of all functions (calls between them included), executes the function as C says: it comes back to the return address with stack pointer and callee-saved registers restored, the returned value in rax, the outside world and all memory but the program's own part of the stack as in C; if the C execution does not end, the machine keeps running. A call of a function of the program means in C what executing its body means; it has a meaning if that is the same wherever its objects lie on the stack.", "quantifier": "every accepted source text, entry function, argument values, memory contents, depth of calls, behaviour of functions outside", "why_tests_cant": "All programs, machine states and call depths; a test runs one program on one input.", "anchors": ["src/main.c", "src/immcgen/immcgen.c", "src/immcgen/external.c", "src/regalloc/regalloc.c", "src/x64gen/x64gen.c", "src/x64gen/ctrlinst.c"]}
{"id": "C69", "title": "The assembler reads the printed text as the code generated", "statement": "Read as the assembler reads it (line by line: section directives, .globl, labels, instructions with their operands, data directives with numbers and strings), the text printed for the code of a source file is one statement for every item of that code: the same instruction or label, the bytes the data item stands for, in the section the item belongs to, and exactly the labels of global visibility are global symbols.", "quantifier": "every source text that is compiled to its end", "why_tests_cant": "All names, offsets, immediates, string contents and their combinations; comparing the output with a file says nothing about how it is read.", "anchors": ["src/x64/x64.c", "src/x64/inst.c", "src/x64/ope.c", "src/x64/data.c", "src/x64/label.c", "src/main.c"]}
{"id": "C70", "title": "From source file to output file", "statement": "If the compiler is run with the name of a C file and ends with exit status 0, the output file with the same stem can be read by the assembler. Wherever the statements of that object file are put in memory, a function entered as the System V calling convention says does what C says of the function of that name in the source file: same result, same outside world, same memory apart from its own part of the stack, callee-saved registers and stack pointer restored; it goes on as long as the C execution does.", "quantifier": "every file system, file name, source text, placement in memory, entry function, arguments, memory contents and depth of calls", "why_tests_cant": "All programs and inputs; a test looks at one output text or one run.", "anchors": ["src/main.c", "src/x64/x64.c", "src/x64gen/x64gen.c", "src/immcgen/immcgen.c", "src/regalloc/regalloc.c"]}
{"id": "C71", "title": "A part of C compiled right without a test", "statement": "Take a function whose declarations, statements and expressions satisfy conditions on types, names and literals only (no logical not, comparisons used as values, shifts by other than literals, initialisers of structures, strings of other lengths than 0, 1, 2 or 4 modulo 8 or with bytes above 127; calls, divisions and differences of pointers only where no other value is kept: as a statement, or as what is computed first in the right side of an assignment, an initialiser, a result, a condition, the controlling expression of a switch, an operand of && or || there, or the last argument of another call; operands of one width; accesses within the declared object; members less than 2^31 bytes from the start of their structure). If the compiler accepts it and it has no calls, divisions, differences of pointers and string initialisers, its machine code does what C says, as in C65, and needs 24 bytes of stack besides its objects. A program of such functions, with or without these, behaves as in C68; a function with any of these also needs eight bytes of padding and the bytes of the arguments of its calls. Nothing is asked of the instructions or registers chosen.", "quantifier": "every function of the part with less than 2^31-16 bytes of local objects, all arguments, memory contents and programs around it; executions within the limits of C36 (index times element size and case values fit their type, differences of pointers are not negative)", "why_tests_cant": "All functions of the part; which registers are chosen and which are saved depends on the whole function.", "anchors": ["src/immcgen/expression.c", "src/immcgen/statement.c", "src/regalloc/regalloc.c", "src/x64gen/x64gen.c", "src/x64gen/arithinst.c", "src/x64gen/datainst.c"]}
{"id": "C72", "title": "The liveness analysis ends and finds exactly the live registers", "statement": "For the code of every function the compiler generates, the iterative analysis of basic blocks reaches a fixed point, the sets at the head and at the end of each block hold exactly the registers live there (no dead ones), and the table of live intervals is then filled without reading an entry that does not exist.", "quantifier": "every list of instructions the generator can produce, with any control flow", "why_tests_cant": "Whether a dead register stays in a set depends on where hash values collide, so on register numbers and on the order of insertions and removals in the whole function.", "anchors": ["src/regalloc/regalloc.c", "src/regalloc/basicblock.c", "src/set/set.c", "src/map/map.c"]}
{"id": "C73", "title": "Small expressions always get registers", "statement": "A program in which assignments, ++ and -- are statements of their own (or stand in the head of a for) and no expression keeps more than seven values at hand while another one is computed always gets through register allocation: the analysis ends, no entry that does not exist is read, and every value gets one of the eight registers.", "quantifier": "every translation unit of this kind with any number of functions, statements and nested expressions; any number of registers in place of eight", "why_tests_cant": "How many intervals overlap at a point depends on the whole tree of every expression, and whether the analysis ends on every path of the control flow; tests only try some shapes.", "anchors": ["src/regalloc/regalloc.c", "src/immcgen/expression.c", "src/immcgen/statement.c", "src/set/set.c"]}
{"id": "C74", "title": "Allocated code always gets machine code", "statement": "Whatever the intermediate code generator and the register allocator make of a program, the machine code generator finds a translation for it: no instruction has operands it gives up on, no register number lies outside of its table, and there are enough preserved registers to save what is in use around a call.", "quantifier": "every translation unit whose expressions are small (at most five values at hand in functions with calls, seven otherwise), shift by literals and use no value of a void function, with any number of functions, statements and nested expressions", "why_tests_cant": "Which operand kinds meet in an instruction, and which registers are in use at a call, depends on the whole tree of an expression and on the allocation of the whole function; tests only try some shapes.", "anchors": ["src/x64gen/inst.c", "src/x64gen/ctrlinst.c", "src/x64gen/util.c", "src/x64gen/x64gen.c", "src/regalloc/regalloc.c", "src/immcgen/expression.c"]}
{"id": "C75", "title": "Programs of C go through the whole compiler and come out right", "statement": "A translation unit that C accepts, written down with any white space between its tokens, is read, parsed, typed, translated, allocated and turned into machine code without an error, a crash or an endless loop, and the functions in the machine code do what C says.", "quantifier": "every source text that spells a translation unit of the part of C described in Spec/Static.lean, Spec/Translatable.lean, Spec/Usable.lean and Spec/Whole.lean: any number of functions, statements, loops and nested expressions, any execution, also those that do not end", "why_tests_cant": "The claim is about all programs and all of their executions; every stage can refuse, crash or mistranslate what the stage before produced, and tests run a few fixed programs through all stages.", "anchors": ["src/main.c", "src/lexer/lexer.c", "src/parser/parser.c", "src/resolver/resolver.c", "src/immcgen/immcgen.c", "src/regalloc/regalloc.c", "src/x64gen/x64gen.c"]}
