{"claims": [
 {"property": "C01", "status": "proved", "theorems": ["Umlcc.C01_vector_refines_list"], "note": "all operation sequences"},
 {"property": "C02", "status": "proved", "theorems": ["Umlcc.C02_vector_memory_safe"], "note": "all operation sequences meeting the index preconditions"},
 {"property": "C03", "status": "partial", "theorems": ["Umlcc.C03_map_last_write_violated", "Umlcc.C03_map_last_write_partial", "Umlcc.C03_map_never_loses_partial"], "note": "violated: re-adding a present key after a removal duplicates it and the stale value reappears; exact for histories that do not do this; never loses an entry in any history"},
 {"property": "C04", "status": "proved", "theorems": ["Umlcc.C04_map_probing_safe", "Umlcc.C04_hash_integer_nonneg", "Umlcc.C04_negative_hash_ub"], "note": "all histories, all hash functions with non-negative results"},
 {"property": "C05", "status": "partial", "theorems": ["Umlcc.C05_set_algebra_partial", "Umlcc.C05_issubset_violated"], "note": "issubset has its arguments reversed; everything else proved for all histories"},
 {"property": "C06", "status": "partial", "theorems": ["Umlcc.C06_hash_string_index_partial", "Umlcc.C06_hash_string_violated"], "note": "violated for bytes from 0x80"},
 {"property": "C07", "status": "partial", "theorems": ["Umlcc.C07_unterminated_literal_hangs_violated", "Umlcc.C07_non_ascii_crashes_violated", "Umlcc.C07_lexing_terminates_partial"], "note": "Violated by unterminated literals and by non-ASCII text; proved for ASCII text ending in a newline without overlong hex escapes."},
 {"property": "C08", "status": "partial", "theorems": ["Umlcc.C08_maximal_munch_partial", "Umlcc.C08_non_ascii_violated"], "note": "Full maximal munch when the next three bytes are ASCII; violated otherwise."},
 {"property": "C09", "status": "proved", "theorems": ["Umlcc.C09_words"], "note": "Every letter-initial input; NUL-free rest because the lexer's content ends at the first NUL."},
 {"property": "C10", "status": "partial", "theorems": ["Umlcc.C10_integer_value_partial", "Umlcc.C10_clamped_violated"], "note": "Exact value for everything fitting 64 bits of the suffix's signedness; violated between 2^63 and 2^64 without suffix u."},
 {"property": "C11", "status": "partial", "theorems": ["Umlcc.C11_integer_type_partial", "Umlcc.C11_int_too_small_violated", "Umlcc.C11_uint_too_small_violated"], "note": "Right type when the value fits the suffix's first candidate; otherwise violated."},
 {"property": "C12", "status": "proved", "theorems": ["Umlcc.C12_string_escapes", "Umlcc.C12_only_such_strings"], "note": "Soundness and completeness of string literal decoding."},
 {"property": "C13", "status": "partial", "theorems": ["Umlcc.C13_display_round_trip_partial", "Umlcc.C13_buffer_overflow_violated", "Umlcc.C13_wrong_bytes_violated"], "note": "Round trip for all ASCII byte strings; violated above 127."},
 {"property": "C14", "status": "partial", "theorems": ["Umlcc.C14_layout_partial", "Umlcc.C14_non_ascii_violated"], "note": "All ASCII layouts with constants in range; violated outside ASCII."},
 {"property": "C15", "status": "proved", "theorems": ["Umlcc.Parser.C15_expression_round_trip", "Umlcc.Parser.C15_spelling_unambiguous"], "note": "every expression tree of the grammar, with casts and sizeof of type names; identifiers are not typedef names in scope"},
 {"property": "C16", "status": "partial", "theorems": ["Umlcc.Parser.C16_polynomial_time_violated", "Umlcc.Parser.C16_nested_parentheses_cost", "Umlcc.Parser.C16_flat_quadratic_partial", "Umlcc.Parser.C16_counter_is_parser"], "note": "violated: exponential in the nesting depth of parentheses (exact cost proved); quadratic bound for all texts without brackets"},
 {"property": "C17", "status": "proved", "theorems": ["Umlcc.Parser.C17_unit_round_trip", "Umlcc.Parser.C17_statement_round_trip", "Umlcc.Parser.C17_else_binds_to_nearest", "Umlcc.Parser.C17_enum_comma", "Umlcc.Parser.C17_init_comma"], "note": "every statement and every translation unit (declarations, struct and enum specifiers, initialisers, function definitions); a comma at the end of an enumerator or initialiser list changes nothing; names obey the scoping condition in Decl.ok, see C59"},
 {"property": "C18", "status": "proved", "theorems": ["Umlcc.Parser.C18_parser_stays_inside", "Umlcc.Parser.C18_depth_irrelevant"], "note": "all token lists with one end-of-file token at the end"},
 {"property": "C19", "status": "proved", "theorems": ["Umlcc.C19_specifiers_any_order", "Umlcc.C19_sort_ast_type_sorts"], "note": "lists of any length; the in-place quicksort is proved for arrays of any length"},
 {"property": "C20", "status": "proved", "theorems": ["Umlcc.Res.C20_declarators_denote_types"], "note": "pointers, arrays, functions with parameters of any such type, over basic types and struct tags; through parser and resolver"},
 {"property": "C21", "status": "proved", "theorems": ["Umlcc.C21_struct_layout", "Umlcc.C21_size_multiple_of_alignment"], "note": "every non-empty member list of object types; includes minimality"},
 {"property": "C22", "status": "partial", "theorems": ["Umlcc.C22_equality_is_structural", "Umlcc.C22_equal_types_same_layout_partial", "Umlcc.C22_incomplete_struct_violated"], "note": "equivalence and copy proved for all types; equal size proved for types whose named structs carry their tag's layout; an incomplete named struct equals its completion but has size 0"},
 {"property": "C23", "status": "proved", "theorems": ["Umlcc.C23_usual_arithmetic_conversions"], "note": "all 49 pairs of integer types"},
 {"property": "C24", "status": "proved", "theorems": ["Umlcc.C24_names_resolve_innermost", "Umlcc.C24_leaving_restores"], "note": "all well-bracketed histories"},
 {"property": "C25", "status": "proved", "theorems": ["Umlcc.C25_locals_disjoint"], "note": "all function bodies"},
 {"property": "C26", "status": "partial", "theorems": ["Umlcc.C26_locals_aligned_partial", "Umlcc.C26_locals_aligned_violated"], "note": "violated for 8-byte types; proved for alignments 1 and 4"},
 {"property": "C27", "status": "partial", "theorems": ["Umlcc.Res.C27_enumerators_count_up_partial", "Umlcc.Res.C27_duplicates_refused", "Umlcc.Res.C27_value_truncated_violated", "Umlcc.Res.C27_largest_value_violated"], "note": "values are cut to 32 bits and the successor of 2147483647 is not refused; the partial theorem covers literals and enumerators as constants and values below 2147483647"},
 {"property": "C28", "status": "partial", "theorems": ["Umlcc.Res.C28_initialisers_partial", "Umlcc.Res.C28_zero_fill_violated", "Umlcc.Res.C28_nested_string_violated"], "note": "zero fill of long elements ends in the 'unreachable' exit and nested string initialisers are refused; the partial theorem covers the other element types, every nesting of braces"},
 {"property": "C29", "status": "partial", "theorems": ["Umlcc.Res.C29_once_partial", "Umlcc.Res.C29_violated"], "note": "Violated: *p++ += 1 evaluates p++ twice. Proved for all left sides whose trees have no effects, all operators, all contexts."},
 {"property": "C30", "status": "partial", "theorems": ["Umlcc.Gen.C30_difference_partial", "Umlcc.Gen.C30_violated", "Umlcc.Res.C30_type"], "note": "Violated for negative distances (the resolver types the difference unsigned); proved for all non-negative ones and all element sizes."},
 {"property": "C31", "status": "partial", "theorems": ["Umlcc.X86.shift_violated", "Umlcc.X86.shift_partial"], "note": "machine level: x64gen emits SAR for every right shift (violated for unsigned); left shifts and signed right shifts proved for all widths, values and counts below the width"},
 {"property": "C32", "status": "proved", "theorems": ["Umlcc.Gen.C32_labels", "Umlcc.Gen.C32_unit"], "note": ""},
 {"property": "C33", "status": "partial", "theorems": ["Umlcc.Gen.C33_written_on_path_partial", "Umlcc.Gen.C33_written_once_partial", "Umlcc.Gen.C33_function_partial", "Umlcc.Gen.C33_violated", "Umlcc.Gen.C33_once_violated"], "note": "First half for expressions of the fragment of C34 and for whole functions made of them, second half for expressions without pointer arithmetic, increments, decrements. Fails for *(c ? p : q) and p + c: both proved."},
 {"property": "C34", "status": "partial", "theorems": ["Umlcc.Gen.C34_computes_partial", "Umlcc.Gen.C34_violated", "Umlcc.Gen.C34_deref_violated"], "note": "The full statement C34_full is violated (subscripts of type char overflow; *(1 ? p : q) uses the wrong register). Proved for all expressions of the fragment safe and all states, in evaluations where the subscript's product fits its type and pointer differences are not negative."},
 {"property": "C35", "status": "partial", "theorems": ["Umlcc.Gen.C35_branches_partial", "Umlcc.Gen.C35_violated"], "note": "Full statement C35_full is violated through *(1 ? p : q). Proved for all conditions of the fragment safe, both polarities, all states."},
 {"property": "C36", "status": "partial", "theorems": ["Umlcc.Gen.C36_executes_partial", "Umlcc.Gen.C36_function_partial", "Umlcc.Gen.C36_forever_partial", "Umlcc.Gen.C36_violated"], "note": "simulation of all statement forms and whole functions, terminating or not, for expressions in the fragment of C34; not: expressions outside of the fragment, case labels outside the range of the controlling type (violated)"},
 {"property": "C37", "status": "partial", "theorems": ["Umlcc.Gen.C37_initialises_partial", "Umlcc.Gen.C37_tail_padding_violated"], "note": "For every type and nested initialiser without padding at the end of array elements (and values in the fragment of C34), running the code of the declaration stores each leaf at its offset in the type and does nothing else. Violated for arrays of structs with tail padding: the second element of struct {int x; char c;} a[2] is stored at offset 5."},
 {"property": "C38", "status": "partial", "theorems": ["Umlcc.C38_live_registers_distinct_partial", "Umlcc.Gen.C38_function_partial", "Umlcc.RSpec.C38_violated"], "note": "Proved for every code sequence and register count, for code in which a live register was written on an earlier line and where either every branch is recognised by the analysis or no register is live across a backward jump; generated functions (fragment of C34) are such code. Fails for code with JLT loops carrying a register: proved."},
 {"property": "C39", "status": "partial", "theorems": ["Umlcc.C39_enough_registers_partial", "Umlcc.C39_spilling_crashes_violated", "Umlcc.C39_nine_live_registers_violated", "Umlcc.C39_one_live_register_violated", "Umlcc.X86.C39_source_violated", "Umlcc.X86.C39_chosen_pointer_violated"], "note": "Linear scan succeeds exactly when interval pressure stays below the register count. Violated as stated: spilling always crashes (general theorem), and early-reserved registers waste pressure (witness). Two source texts on which the compiler crashes are taken through all stages."},
 {"property": "C40", "status": "partial", "theorems": ["Umlcc.C40_liveness_sound_partial", "Umlcc.C40_missed_branch_violated"], "note": "Sound for code whose branches are in JMP..JGEQ; JLT/JLEQ are not recognised (witness)."},
 {"property": "C41", "status": "partial", "theorems": ["Umlcc.C41_allocation_preserves_behaviour_partial", "Umlcc.Gen.C41_function_partial", "Umlcc.RSpec.C41_violated"], "note": "Lock-step simulation for any instruction semantics, under the hypotheses of C38 and that dead writes do not hit registers shared with live ones; without hypotheses for generated functions (fragment of C34). Fails for JLT loops carrying a register: proved."},
 {"property": "C42", "status": "partial", "theorems": ["Umlcc.X86.binary_mul8_violated", "Umlcc.X86.binary_fst_violated", "Umlcc.X86.binary_mul_via_ax_violated", "Umlcc.X86.binary_div_r10_violated", "Umlcc.X86.binary_alu_partial", "Umlcc.X86.binary_mul_partial", "Umlcc.X86.binary_div_partial", "Umlcc.X86.unary_partial"], "note": "violated by four instruction shapes; proved for add, sub, and, or, xor, mul, div, mod, neg, not outside them"},
 {"property": "C43", "status": "partial", "theorems": ["Umlcc.X86.moveConverts_violated", "Umlcc.X86.moveConverts_same_violated", "Umlcc.X86.moveConverts_partial"], "note": "violated for unsigned 32 to 64 bits, between registers and within one; proved for all other widths, signs and registers"},
 {"property": "C44", "status": "partial", "theorems": ["Umlcc.X86.compare_violated", "Umlcc.X86.compare_partial", "Umlcc.X86.jump_partial"], "note": "violated when the destination differs from the first operand; proved otherwise for setcc and conditional jumps"},
 {"property": "C45", "status": "proved", "theorems": ["Umlcc.X86.args_at_entry", "Umlcc.X86.params_loaded", "Umlcc.X86.args_reach_params"], "note": "caller and callee against the System V convention, and composed; any number of arguments below 2^32"},
 {"property": "C46", "status": "partial", "theorems": ["Umlcc.X86.callPreserves_violated", "Umlcc.X86.callPreserves_partial"], "note": "violated: rbp is used to save the second live register; live registers and stack pointer proved in general, the frame pointer for at most one saved register"},
 {"property": "C47", "status": "partial", "theorems": ["Umlcc.X86.alignedNested_violated", "Umlcc.X86.aligned_call", "Umlcc.X86.aligned_body", "Umlcc.X86.alignedNested_partial"], "note": "violated for calls inside arguments after an odd number of words; proved otherwise"},
 {"property": "C48", "status": "proved", "theorems": ["Umlcc.X86.function_shape", "Umlcc.X86.function_restores"], "note": "every frame size, every number of saved registers, every body that is balanced (keeps rsp, its frame record, and the callee-saved registers that are not pushed)"},
 {"property": "C49", "status": "partial", "theorems": ["Umlcc.X86.stringExact_past_end_violated", "Umlcc.X86.stringExact_high_byte_violated", "Umlcc.X86.stringExact_partial", "Umlcc.X86.stringPadded_partial", "Umlcc.X86.C49_saved_register_violated"], "note": "violated for bytes above 0x7f and for lengths 3, 5, 6, 7 modulo 8; proved for the other strings of any length; for the lengths named, what is stored instead (up to three zero bytes behind the array) is proved too; a whole program is compiled whose string store overwrites the saved frame pointer of its caller"},
 {"property": "C50", "status": "partial", "theorems": ["Umlcc.Gen.C50_data_partial", "Umlcc.Gen.C50_string", "Umlcc.Gen.C50_layout_fits", "Umlcc.Gen.C50_not_literal_violated", "Umlcc.Gen.C50_casts_violated"], "note": "The directives for every object type, with no initialiser or with one made of integer literals (possibly cast), strings and nested lists, assemble to exactly the declared bytes including padding. Violated for other constant expressions: int x = -1; reads through NULL, int x = (char)300; gives 300. Missing: the step from intermediate data to printed directives."},
 {"property": "C51", "status": "partial", "theorems": ["Umlcc.X86.regNames_violated", "Umlcc.X86.regNames_partial"], "note": "violated: the 16-bit name of r13 is %r13q; all other names proved"},
 {"property": "C52", "status": "partial", "theorems": ["Umlcc.Main.C52_status_partial", "Umlcc.Main.C52_unwritable_violated", "Umlcc.Main.C52_full_device_violated"], "note": "Proved for outputs that can be created on devices with room: status 1 and unchanged files on errors, status 0 and the whole text otherwise. Violated when the output cannot be created or the device is full."},
 {"property": "C53", "status": "partial", "theorems": ["Umlcc.C53_cursor_exact", "Umlcc.C53_live_registers_reported_partial", "Umlcc.C53_early_dead_result_violated"], "note": "Cursor exact over consecutive intervals; every live-out register reported alive. Violated for early-reserved never-read result registers (witness)."},
 {"property": "C54", "status": "partial", "theorems": ["Umlcc.Gen.C54_chain_partial", "Umlcc.Gen.C54_single", "Umlcc.Gen.C54_constant", "Umlcc.Gen.C54_inner_ignored", "Umlcc.Gen.C54_violated"], "note": "Violated: inner casts of a chain are ignored. Proved for single casts, for constants, and for chains in which merging is harmless."},
 {"property": "C55", "status": "partial", "theorems": ["Umlcc.Gen.C55_address_partial", "Umlcc.Gen.C55_violated"], "note": "Violated for conditional expressions and assignments through pointers; proved for all other pointer expressions (fresh) in the fragment of C34."},
 {"property": "C56", "status": "partial", "theorems": ["Umlcc.Res.C56_labels_partial", "Umlcc.Res.C56_labels_not_converted_violated"], "note": "labels are compared before conversion to the promoted type of the controlling expression; otherwise for all statement trees over integer expressions"},
 {"property": "C57", "status": "partial", "theorems": ["Umlcc.C57_assembler_reads_bytes_partial", "Umlcc.C57_alert_violated"], "note": "All ASCII strings without alert and vertical tab; violated for those."},
 {"property": "C58", "status": "partial", "theorems": ["Umlcc.C58_nothing_skipped_partial", "Umlcc.C58_rest_ignored_violated"], "note": "All files without NUL and 0xFF; violated with them."},
 {"property": "C59", "status": "partial", "theorems": ["Umlcc.Parser.C59_inner_declaration_violated", "Umlcc.Parser.C59_member_violated", "Umlcc.Parser.C59_block_scope_partial"], "note": "violated: a typedef name cannot be redeclared; typedef names of a block end with it for every program"},
 {"property": "C60", "status": "partial", "theorems": ["Umlcc.Res.C60_enum_tag_violated", "Umlcc.Res.C60_refused_typedef_violated", "Umlcc.Res.C60_void_typedef_violated", "Umlcc.Res.C60_cyclic_struct_violated", "Umlcc.Res.C61_valid_types_partial"], "note": "violated: NULL dereference, 'unreachable' exit and an endless run have concrete witnesses; every answer is guaranteed for declarations of any derived type (C61_valid_types_partial)"},
 {"property": "C61", "status": "partial", "theorems": ["Umlcc.Res.C61_valid_types_partial", "Umlcc.Res.C61_size_truncated_violated", "Umlcc.Res.C61_array_of_functions_violated"], "note": "sizes are cut to 32 bits and typedefs allow arrays of functions; exact acceptance for all derived types with sizes below 2^31 without typedef names"},
 {"property": "C62", "status": "partial", "theorems": ["Umlcc.Gen.C62_translatable_partial", "Umlcc.Gen.C62_source_partial", "Umlcc.Gen.C62_violated", "Umlcc.Gen.C62_cast_statement_violated", "Umlcc.Gen.C62_cast_dereferenced_violated", "Umlcc.Gen.C62_member_of_call_violated", "Umlcc.Gen.C62_negative_static_violated", "Umlcc.Gen.C62_static_pointer_violated"], "note": "Exactly which typed trees are translated is proved (both directions, all trees). C62 as stated is violated: casts as statements or under *, members of returned structs, static initialisers that are not literals."},
 {"property": "C63", "status": "partial", "theorems": ["Umlcc.X64.C63_printed_partial", "Umlcc.X64.C63_instruction_partial", "Umlcc.X64.C63_label_partial", "Umlcc.X64.C63_data_partial", "Umlcc.X64.C63_long_name_violated", "Umlcc.X64.C63_long_string_violated"], "note": "Every item with symbols of at most 43 (operands) or 90 (labels) characters and ASCII strings of at most 46 bytes is printed. Longer ones overflow the buffers (end-to-end witnesses)."},
 {"property": "C64", "status": "partial", "theorems": ["Umlcc.Gen.C64_allocated_function_partial", "Umlcc.Gen.C64_violated"], "note": "Composition of C36 and C41 without assumptions about labels or liveness, for the functions and executions C36 covers. Fails where C36 fails: proved."},
 {"property": "C65", "status": "partial", "theorems": ["Umlcc.X86.C65_stages_partial", "Umlcc.X86.C65_function_partial", "Umlcc.X86.C65_checked_partial", "Umlcc.X86.C65_violated"], "note": "Proved for all functions of the fragment of C36 whose allocated code meets Suits (decidable by the test checked), for executions within the limits of C36; missing: what C36 misses and the instructions whose machine code is wrong. The full statement is C65_full; it is violated by return n++ < 3;."},
 {"property": "C66", "status": "partial", "theorems": ["Umlcc.Stat.C66_expressions_partial", "Umlcc.Stat.C66_pointer_difference_violated", "Umlcc.Stat.C66_sizeof_type_violated", "Umlcc.Stat.C66_shift_type_violated", "Umlcc.Stat.C66_null_comparison_violated", "Umlcc.Stat.C66_null_assignment_violated", "Umlcc.Stat.C66_null_arm_violated", "Umlcc.Stat.C66_void_comparison_violated", "Umlcc.Stat.C66_struct_assignment_violated", "Umlcc.Stat.C66_member_address_violated", "Umlcc.Stat.C66_array_cast_violated", "Umlcc.Stat.C66_array_arrow_violated", "Umlcc.Stat.C66_void_arms_violated", "Umlcc.Stat.C66_rvalue_member_violated", "Umlcc.Stat.C66_void_arithmetic_violated", "Umlcc.Stat.C66_function_order_violated", "Umlcc.Stat.C66_stale_size_violated", "Umlcc.Stat.C66_violated"], "note": "Proved for all states and expressions outside the known deviations and the parts not described (tree true is not out), with tree true equal to C there. The full statement is C66_full; it is violated in 16 ways with witnesses."},
 {"property": "C67", "status": "partial", "theorems": ["Umlcc.Stat.C67_units_partial", "Umlcc.Stat.C67_violated", "Umlcc.Stat.C67_prototype_violated", "Umlcc.Stat.C67_tentative_violated", "Umlcc.Stat.C67_void_function_name_violated", "Umlcc.Stat.C67_storage_class_violated", "Umlcc.Stat.C67_empty_declaration_violated", "Umlcc.Stat.C67_typedef_function_violated"], "note": "Every unit of the grammar for which the restricted static semantics says something: accepted with the tree of C or never accepted. Missing: the listed deviations (the full statement is false) and the parts of C that Spec/StaticUnit.lean does not describe."},
 {"property": "C68", "status": "partial", "theorems": ["Umlcc.X86.C68_program_partial", "Umlcc.X86.C68_call_partial", "Umlcc.X86.C68_violated"], "note": "Proved for all accepted source texts each of whose functions passes the test of C65 (passes) or belongs to the part of C71 (plainFn), and whose labels are distinct, any depth of calls, any placement and contents of memory, any functions outside that obey the calling convention; diverging executions included. Missing: functions outside of the fragment of C36/C65. The full statement is C68_full; it is violated by return n++ < 3;."},
 {"property": "C69", "status": "partial", "theorems": ["Umlcc.Asm.C69_text_partial", "Umlcc.Asm.C69_violated"], "note": "Proved for all items whose names consist of characters of symbols and whose strings the assembler reads back. Missing: strings with \\a, \\v, for which it is violated; that names of generated code are symbols is a hypothesis. Full statement: Asm.C69_full."},
 {"property": "C70", "status": "partial", "theorems": ["Umlcc.Asm.C70_file_partial", "Umlcc.Asm.C70_violated"], "note": "Proved for all files each of whose functions passes the test of C65 or belongs to the part of C71, and whose code the assembler can read (Asm.Tested). Full statement: Asm.C70_full; violated by return n++ < 3;."},
 {"property": "C71", "status": "proved", "theorems": ["Umlcc.X86.C71_function", "Umlcc.X86.C71_program"], "note": "All functions of the part of Spec/Plain.lean (conditions on the typed tree), no test of the generated code; executions within the limits of C36; local objects below 2^31-16 bytes. C71_function: functions without calls, divisions, differences of pointers and string initialisers, one by one. C71_program: whole programs, with calls (also recursive ones), divisions and differences of pointers where no other value is kept in a register, in functions that are tidy (C73)."},
 {"property": "C72", "status": "partial", "theorems": ["Umlcc.C72_crash_violated", "Umlcc.C72_endless_violated", "Umlcc.C72_exact_partial", "Umlcc.C72_table_partial", "Umlcc.C72_function_partial"], "note": "Violated by two source texts (crash, endless analysis). Proved for orderly code: every instruction reads registers for the last time, or lies in a short stretch on three neighbouring registers after which nothing is live, or is a jump; and the code of every tidy function (C73) is proved orderly. Missing: code that is not orderly, where the claim fails in general, and JLT/JLEQ branches (C40)."},
 {"property": "C73", "status": "partial", "theorems": ["Umlcc.C73_violated", "Umlcc.C73_function_partial", "Umlcc.C73_program_partial", "Umlcc.C73_sharp"], "note": "Proved for whole programs whose functions are tidy (assignments and ++/-- as statements of their own, fewer values at hand than registers), for any number of registers; the bound is sharp. Violated for all programs (C72, C39). Missing: functions outside of this kind that nevertheless get registers."},
 {"property": "C74", "status": "partial", "theorems": ["Umlcc.C74_violated", "Umlcc.C74_sharp", "Umlcc.C74_program_partial", "Umlcc.C74_stages_partial", "Umlcc.C74_right_partial"], "note": "Proved for whole programs whose functions are good (Spec/Usable.lean, conditions on the typed tree): they get registers and machine code; with C71 the code is right. Violated for all programs: shift by a variable (exit with an error), six values kept around a call (read past an array; the bound is sharp). Missing: functions that are not tidy in the sense of C73 or keep six or seven values in a function with calls but not around one."},
 {"property": "C75", "status": "partial", "theorems": ["Umlcc.Whole.C75_violated", "Umlcc.Whole.C75_program_partial"], "note": "Proved for a part of C described on the source alone (C67 typing, translatable, small expressions, plain functions with calls, moderate objects): for every layout of the tokens all stages succeed and the functions do what C says. Violated for all of C: int x = -1; . Missing: calls and divisions inside of larger expressions and whatever else plainIn, goodExt and fitsUnit leave out."}
]}
