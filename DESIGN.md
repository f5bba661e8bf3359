# Verification of umlcc: design

Target: the C sources under `/repo/src` (umlcc, "unit, minimal, least C compiler").
The Lean project is `/verif/lean`. Models are in `Verif/Model/*.lean`, helper lemmas in
`Verif/Lemma/*.lean`, independent specifications in `Verif/Spec/*.lean` and the property theorems in
`Verif/Props/*.lean`.

## Method

* Each C function that matters for a property is transcribed into a small total Lean function. The
  comment above each definition gives the file and line range it transcribes and what was simplified.
* Undefined behaviour of the C program (out-of-bounds access, NULL dereference, division by zero,
  calling `exit(1)` on "unreachable" paths) is a separate outcome, never identified with a value.
* Properties are stated against specifications that do not use the model's helpers.
* Where the code violates the property, the negation is proved with a concrete witness and the best
  true weakening is proved under a name ending in `_partial`.

## Trusted base

* The Lean 4.33.0 kernel; the axioms `propext`, `Classical.choice`, `Quot.sound` and no others.
* The reading of the C code into the model definitions (not machine checked).
* Where machine semantics is used, our transcription of the x86-64 instructions emitted.
* `Spec/CSem.lean` as a reading of the C standard (evaluation order fixed to one of those allowed; flat memory) and
  `Spec/ImmcSem.lean` as the intended meaning of intermediate code. The latter uses the same `ISem` operations as the theorems about
  machine code (C42-C45), so an error in it would show as a failure to compose the two.

## Not modelled

* `malloc`/`realloc`/`free` failure and object lifetime (ownership, double free, leaks).
* Error message texts, `fprintf` output on stderr, the debugging printers of tokens, trees and intermediate code (the printer of assembly and its buffers are modelled).
* The C library functions themselves (`strtoll`, `strcmp`, `vsprintf`, ...) are modelled by what the C
  standard says they return.
* `int` overflow of sizes and counters of the compiler itself, unless a property mentions it.

## Plan per property

(See the table at the end of this file; it is updated as the proofs are written.)

| id | model | how proved |
|----|-------|-----------|
| C01, C02 | vector.c as (slots, size, capacity) with explicit allocation | refinement to `List`, induction over operation sequences |
| C03, C04, C06 | map.c as array of optional cells with tombstones | invariant over histories; counterexample for the stale value after tombstone reuse and for negative hashes |
| C05 | set.c over the map model | refinement to membership predicates |
| C07-C14 | reader.c/lexer.c over byte lists with fuel for the unbounded loops | induction on input; counterexample for unterminated literals |
| C15-C18 | the complete parser (expressions, declarations, statements, translation units) as fuelled recursive descent over token lists; `Spec/Syntax.lean` is an independent grammar: trees, their C spelling with minimal parentheses, and the expected AST | print/parse round trip by mutual induction over the grammar; termination and staying inside the token list by a weakest-precondition calculus with the measure 27·(remaining tokens)+rank; counting model for C16; a comma at the end of an enumerator list or an initialiser list is accepted and changes nothing (`C17_enum_comma`, `C17_init_comma`, for lists of any length) |
| C19 | sort_ast_type on lists with index swaps, specifier table | sortedness + permutation, table |
| C20-C23, C61 | dtype, conversion, resolver | structural induction, complete tables; for declarators a mutual induction over the types of `Spec/Declarator.lean` |
| C24-C26 | symtab as a stack of scopes | invariants over histories |
| C27, C28, C56, C60 | the complete resolver (`Model/Resolver.lean`): one fuelled record of mutually recursive functions over the parser's AST | the limit `full` of the fuelled functions satisfies the recursion equations; theorems say "from some depth on the outcome is"; induction over enumerator lists, statements and initialisers of the independent grammar; C60's endless run by showing that a marked fixpoint equals the limit |
| C29, C31 | resolver, x64gen | witnesses + partial theorems |
| C32 | the complete intermediate code generator (`Model/Immcgen.lean`) in a writer/state monad | induction over typed trees: labels are unique and every referenced one is defined |
| C30, C34, C35, C54, C55 | the generator against `Spec/CSem.lean`, an evaluator for typed expressions on mathematical integers written from the C standard, and `Spec/ImmcSem.lean`, a machine for intermediate code (memory, typed registers, arbitrary called functions) | one mutual induction over expressions (`Sim.exprSim`): for every expression of the fragment `CSem.safe` the code, the operand forms (`gen_child_*_immcope`), the address forms and the branch forms simulate `eval`. `safe` excludes just the shapes the compiler gets wrong, for each of which there is a `_violated` theorem |
| C37, C50 | the generator against `Spec/Layout.lean`: the list of leaves of an initialiser with their offsets, and what initialising them does to memory (C37) or which bytes they make (C50) | mutual induction over initialisers; for C37 on top of `Sim.exprSim` |
| C36 | the generator against `Spec/CStmt.lean`, a bounded-depth executor for statements and functions written from the C standard (scopes, `switch` into the middle of statements, loops, `break`, `continue`, `return`, declarations with initialisers, parameters); the bound makes executions that never end visible | one induction on the bound for all kinds of statement at once (`Sim.all_sim`), on top of C34 and C37; labels are unique by C32; a lower bound on the number of machine steps gives non-termination |
| C33 | the generator | a type system for liveness (`Lemma/LiveTyp.lean`: the registers live before and after each piece of code, and at each label) that every generated piece of code obeys (`LiveExpr`, `LiveExprs`, `LiveStmt`); from it follow `WrittenOnPath`, and the conditions `DefBefore`, `WritesMatter`, `BackDead` of C38 and C41. `Lemma/Once.lean` counts writes |
| C64 | the generator and regalloc | C36 composed with C41, with the conditions on the code proved of the generator (C32, C33) |
| C65 | the generator, regalloc and x64gen | C64 composed with a simulation of the allocated code by the machine code of the function (`X86.func_run`): every line is a block of items, the invariant relates machine and intermediate registers that are live, memory outside the private part of the stack, the calls being prepared (what they have on the stack, the registers they have saved) and the caller's registers. The per-instruction facts are those of C42-C46 restated for blocks (`X64Step*`). Which allocated code is suitable is the predicate `Suits`; `checked` (`Spec/X64Check.lean`) decides it, and holds for 26 of 28 sample functions tried, the others being ones the compiler gets wrong (`setcc`, strings whose length is not a multiple of 8). Which bytes may be accessed is part of the C semantics (`Ctx.ok`): an access elsewhere is undefined behaviour, so saved registers and return addresses are out of reach by definition and no condition on the run is needed |
| C66 | the resolver on expressions, specifiers, declarators and parameter lists | Against a static semantics written from the standard (`Stat.tree`, `Spec/Static.lean`): a function from scopes and expressions to typed tree, refusal or "not described". By induction over expressions the resolver's outcome and final state are those of `Stat.tree true` (`StatL.tree_does`), in which the known deviations are left out; `StatL.tree_le` shows that what is left is C (`Stat.tree false`). Partial: `Stat.C66_full` is false, 16 deviations have witnesses; sizes of arrays in type names that are not literals or enumerators and struct definitions inside expressions are not described. |
| C67 | parser and resolver on whole units | Continues C66: `Stat.unit` (`Spec/StaticUnit.lean`) is a static semantics of declarations, initialisers, statements, functions and units, written from the standard over a state of its own (scopes, tags, labels, unit so far). `StatL.abs` reads that state off the resolver's; `StatL.Sim` says that a part of the resolver ends as the description says and in a state that reads as described (`decl_sim`, `stmt_sim`, `exts_sim`); `StatL.unit_le`: what `unit true` says is C. With the parser's round trip (C17) the theorem is about token texts. Partial: `Stat.C67_full` is false (`C67_violated`), 6 deviations have witnesses beside those of C66; not described: definitions inside struct definitions or type names, hidden tags, enumerators given by other expressions than literals and names, aggregates with other than integer elements of type `char`/`int`, non-constant initialisers at file scope, `case` labels outside of the range of the type. A refusal is shown as: never accepted. |
| C68 | all stages, `main.c` order (`Main.stages`) | Composition of C65 over the functions of a unit. The items of each function are found in the assembly code (`Lemma/GenBody.lean`, `Lemma/Chunks.lean`: a unit generates one chunk per function, allocation and translation map chunks to chunks; `X86.good_of`), what is in scope at each definition is `CStm.fnsOf`. Calls `n` deep mean `Prog.call n`, defined by executing bodies with calls `n - 1` deep (`Spec/Program.lean`); bounded executions that end do not depend on the bound (`CStm.exec_upto`), so a call has one meaning (`CStm.does_unique`). On the machine, `nest` treats the calls made as single steps and is shown by induction on the depth to do what `Prog.call` says (`X86.provides_all`); `X86.hops_of_ticks` replaces every such step by the items of the called function. Partial: every function has to pass the test of C65 (`passes`) or belong to the part of C71 (`plainFn`), no label may be defined twice, structure tags at file scope have to be laid out. The example runs a source text through all stages in the kernel. |
| C69 | printing (`Main.printAll`, `Model/Print.lean`) | `Spec/Asm.lean` is a reader of assembly text written without the printer: characters of symbols, numbers, operands, mnemonics, directives, the section each statement is in. Reading the text printed for a list of items gives one statement per item (`Asm.printAll_read`, induction on the items; numbers by C57's lemmas on digits, operands and mnemonics by their first characters). Partial: names have to consist of characters the assembler allows and strings of bytes it reads back (`Legible`). |
| C70 | all stages and `main.c` | C52's model of `main` gives the text of the output file, C69 its statements; running statements (`Asm.hops`: by mnemonic, section and label, without the compiler's items) is running the items (`Asm.hops_eq`), for which C68 holds. Partial: as C68, and the code has to be readable (`Tested`). The example goes from file to file in the kernel. |
| C71 | the generator, regalloc and x64gen | A part of C is given by conditions on the typed tree (`Spec/Plain.lean`), without looking at any code. For the code generated from it an invariant is proved by induction on expressions, statements and items (`Lemma/Plain*.lean`): every virtual register is written before it is read and not used after it is consumed (`Use`, `SUse`), operand widths, immediates and stack offsets are those the translation gets right, `load`s of arguments come first. Members of structures are allowed if they are less than 2^31 bytes from the start, because the offset becomes an immediate operand (`Plain.smallTags` says this of the tags in scope, which the generator looks the members up in). Renaming of registers by the allocator keeps this (`shape_rename`, `live_rename`), so the allocated code meets `Suits` (`Plain.suits_plain`), the hypothesis of C65. C68 and C70 now ask of every function that it passes the test or belongs to the part (`proper`). Calls are allowed where no other value waits in a register: as statements, and as what is computed first in the right side of an assignment, an initialiser, a result, a condition, the controlling expression of a `switch`, the operands of `&&` and `||` in these places, the condition of `?:` or the last argument of a call (which is the one computed first; `fact(n - 1) * n`, but not `n * fact(n - 1)`: there the register of `n` has to be saved, and whether it is depends on the cursors into the intervals of all functions before, C53). The machine code generator saves registers around a call that the intervals of the allocator report in use, so here the intervals matter: `Lemma/PlainCall.lean` shows that no register written before a call is read after it (`Spot.cut`), `Lemma/ChunkLives.lean` that an interval running inside a function is one of its own, and `Lemma/PlainFlags.lean` puts this together with C73's result that intervals of tidy functions end at reads: at most the destination of the call is reported. `scan` follows the arguments on the stack and bounds them. The machine code of `/` and `%` overwrites `rdx` and, for a literal divisor, `r10` without regard to what they hold, so divisions are allowed in the same places as calls: `quot_begun` shows that nothing written before a division is read after it, except for its result, so that the result is the only live register. The difference of two pointers ends in such a division (`gap_begun`); it divides a register in place, which `Spot.cut` allows for everything but calls. Initialisers of arrays store one value after the other (`plainInit`, `init_use`); strings that C49 proves to be copied right may initialise arrays (`string_use`: the copy overwrites `r10`, but nothing is live at a declaration). Proved as stated; `C71_function` is the part without calls, divisions and strings copied, `C71_program` has them, because what the intervals report depends on the functions before. That functions outside of the part need a test or are wrong is C65's `_violated`. |
| C72 | regalloc, map, set | Violated twice, for source texts taken through lexer, parser, resolver and generator: the analysis crashes (`C72_crash_violated`) or never ends (`C72_endless_violated`, shown by a cycle of length two in the states of the analysis, so for every fuel). Both come from C03: a register that is removed leaves a deleted cell, a register present behind it is added a second time and later removed once. Proved for orderly code (`Spec/FlowSets.lean`): each instruction reads registers for the last time and each once, or lies in a stretch that ends with nothing live and reads at most three neighbouring registers (so also `i++` as a statement; three neighbouring even hash values never collide in a table of odd size, `Lemma/FlowHome.lean`), or is a jump: a jump ends its block, so it acts on a set freshly united from the successors, from which nothing was removed yet; this covers `switch`). Then the sets stay free of duplicates (`Lemma/FlowSet.lean`), grow from pass to pass inside the live registers, so the analysis ends (`Lemma/FlowEnds.lean`) with exactly the live registers (`C72_exact_partial`), and the interval table is filled (`C72_table_partial`). A checker with a soundness proof (`Lemma/FlowCheck.lean`) gives examples from generated code. |
| C73 | the generator and regalloc | As stated for all programs it fails (`C73_violated`, from C72; C39). `Spec/Tidy.lean` gives conditions on the typed tree only: no assignment, `++` or `--` inside of an expression whose value is used, and a number (`need`) of values kept at hand while another is computed. By induction on expressions (`Lemma/TidyCode.lean`, `TidyExprs.lean`) every instruction reads its registers for the last time, and at each write at most `need` registers with smaller numbers are read later; statements put such pieces one after the other (`TidyStmts.lean`; `++` as a statement is a short stretch in the sense of C72). With the liveness typing of C33 this makes the code orderly (`TidyFlow.lean`), so C72 applies; intervals end at a read of their register (`Why`), so the number of intervals that run when another begins is at most `need`, and C39 gives everything a register. Composed over the functions of a unit in `TidyUnit.lean`. `C73_sharp` is a one-line program with `need` 8 on which the compiler crashes. `C72_function_partial` is C72 for these functions. |
| C74 | regalloc and x64gen | As stated for all programs it fails (`C74_violated`, `C74_sharp`). `Spec/Usable.lean` gives conditions on the typed tree: shift counts are literals, values of `void` functions are not used, functions are not called by the name of a local object, and the function is tidy (C73) with at most five values kept if it contains calls, seven otherwise. Induction on expressions and statements (`Lemma/Fit.lean`, `TidyStmts.lean`) shows which operand kinds every instruction has (`fitInst`), that a call writes a register newer than all before it, and that nothing newer than what was written before a call without a result is read after it. `Lemma/FitInst.lean`: such an instruction with register numbers below 8 is translated. `Lemma/FitUnit.lean`: the registers reported in use at a line belong to different values whose intervals, made for this function, run across the line (the intervals of other functions do not); each was written before and is read later, so at a call at most `need` ≤ 5 are saved; composed over all lines, functions and objects of the unit. `C74_stages_partial` says it of the whole compiler, `C74_right_partial` adds C71: what comes out does what C says. Hypotheses left: code was generated for the typed tree. |
| C75 | all stages | As stated for all of C it fails (`C75_violated`). `C75_program_partial` puts C14, C67, C62, C73, C74 and C71 together: `Spells` says that a text consists of the tokens of an abstract translation unit with any white space; if C's rules give that unit a typed tree (`Stat.unit true`), the tree has translation rules (`Tr.fitsUnit`), its expressions are small (`Tidy.goodExt`) and its functions plain with objects of moderate size (`wholeExt`, `Spec/Whole.lean`), all stages succeed for all large fuel and every function does what C says. No hypothesis speaks about code. `Lemma/Room.lean` bounds the stack frame that the generator reserves by the sizes of the declared objects (`Spec/Room.lean`), so that the conditions on the frame in C71 follow from the source. `Loaded` (labels differ, functions are at the addresses of their names) remains as the description of what assembler, linker and loader do. |
| C62 | the generator | a predicate on typed trees (`Spec/Translatable.lean`) that is true exactly for the trees that are translated; `Runs` (`Lemma/Runs*.lean`) gives for each generating function the exact condition of its success. What is missing for the property fails: witnesses are source texts run through lexer, parser, resolver and generator |
| C38-C41, C53 | regalloc | linear-scan invariant, fixpoint soundness, simulation |
| C42-C49 | x64gen with an x86-64 subset machine over `BitVec 64` | symbolic execution per emission scheme |
| C29 | the resolver and the C semantics | the tree of `E1 op= E2` reads E1 twice; harmless if E1 is free of side effects (proved for all such E1 by evaluating the tree), wrong otherwise (witness) |
| C50-C52, C63 | tables, the printer with its buffers (`Model/Print.lean`), `main` with a file system (`Model/Main.lean`) | case analysis, induction; complete runs of the model compiler evaluated by the kernel |

## Validation of the model

The whole chain of models (`Main.stages` and `Main.printAll`: lexer, parser, resolver, generator, register allocation, x64 generation, printing) was run
as a program on the 30 programs in /repo/test-fixtures. The resulting assembly was assembled and linked with a small library written for the purpose; all 30 executables printed
what `expected.txt` says. (The code in /repo was not built or run.) The programs in /repo/sample either work too or use what the compiler does not support (`short`,
comments, negative case labels, initialised global pointers).

Definitions were also changed on purpose in a scratch copy (`seeded/LOG.jsonl`, 292 changes). 280 stopped the build at once, 11 did so only after theorems were added, one is
equivalent to the original. How to read the log: a change counts as killed if the build fails, in a property theorem, an example or a helper lemma; `failed` names where. A failure
in a helper lemma shows that the proof as written uses what was changed, not that the property becomes false; proofs were not repaired to find out. This matters most for the 65
changes to the conditions of C71 and C75 (`Plain.*`, `plainFn`, `Whole.*`): for example the changes to `Plain.gap` fail in `gap_ops`, which takes the condition apart, so they do not
show that each condition is necessary. Rounds were run with a list of target modules where that was faster, so `failed` need not list every theorem affected.

## Disagreements between code and properties (bugs found by reading)

Each is confirmed by a theorem about the model with a concrete witness (name ending in `_violated` unless noted).

* C03 `map.c`: `map_add` reuses the first tombstone of a probe sequence without looking further, so a key can sit in two
  cells and a removed key shows its old value again (`C03_map_last_write_violated`).
* C04/C06 `type.c`: `hash_string` sums `char` values; bytes above 127 are negative, the hash and the probe index become
  negative: out-of-bounds read (`C06_hash_string_violated`, `C04_negative_hash_ub`).
* C05 `set.c`: `set_issubset(set, other)` tests the reverse inclusion (`C05_issubset_violated`).
* C22 `dtype.c`: two incomplete structs of the same name compare equal to a complete one in one direction only /
  have different sizes (`C22_incomplete_struct_violated`).
* C26 `symtab.c`: a local's offset is rounded to its own size class before adding it, so locals can be misaligned
  (`C26_locals_aligned_violated`).
* C39 `regalloc.c`: a spilled register has number -1 and `update_liveseqs` indexes a vector with it: NULL dereference
  for every function that needs a spill (`C39_spilling_crashes_violated`). `int f(int a){return a|a^a&a==a<a+a*(a+a);}`
  is such a function (`X86.C39_source_violated`, all stages from the text on); `return *(c?p:q);` crashes it with any number
  of registers, because the register of the chosen pointer is never written (`X86.C39_chosen_pointer_violated`).
* C40 `regalloc.c`: `JLT` and `JLEQ` come after `JGEQ` in the enumeration and are not recognised as branches
  (`C40_missed_branch_violated`).
* C53 `liveseq.c`: the cursor steps over at most one interval per instruction; two intervals with the same start make it
  lag (`C53_early_dead_result_violated`).
* C07 `reader.c`: `read_string_literal` and `read_character_constant` do not test for `EOF`: an unterminated literal loops
  for ever (`C07_unterminated_literal_hangs_violated`). Source text with bytes above 127 close after a punctuator or an
  integer makes the table index negative (`C07_non_ascii_crashes_violated`, `C08_non_ascii_violated`, `C14_non_ascii_violated`).
* C10/C11 `reader.c`: an integer constant takes the type named by its suffix, never a larger one, and saturates at the
  64-bit limit (`C10_clamped_violated`, `C11_int_too_small_violated`, `C11_uint_too_small_violated`).
* C13 `sliteral.c`: `%03o` of a negative `int` prints eleven digits: buffer overflow or wrong bytes
  (`C13_buffer_overflow_violated`, `C13_wrong_bytes_violated`).
* C57 `sliteral.c`: `\a` and `\v` are printed as C escapes, which the GNU assembler does not know (`C57_alert_violated`).
* C58 `lexer.c`/`util.c`: the rest of the file after a NUL or a byte 0xFF (taken for `EOF`) is ignored without a message
  (`C58_rest_ignored_violated`).
* C31 `x64gen`: every right shift becomes `sar`, also for unsigned operands (`X86.shift_violated`).
* C42 `x64gen`: 8-bit multiplication prints `imulb` with two operands, which does not exist (`X86.binary_mul8_violated`); the
  result is computed in the register of the first source, which loses it if it is still needed (`X86.binary_fst_violated`);
  the product of a `long` and an `int` widens the second factor through `rax`, where the first factor is
  (`X86.binary_mul_via_ax_violated`); a divisor literal is put in `r10` even if a live value is there (`X86.binary_div_r10_violated`).
* C43 `x64gen`: unsigned 32 to 64 bits prints `movq %ecx, %rdx`, which is not an instruction (`X86.moveConverts_violated`); within
  one register it prints nothing and the upper half stays (`X86.moveConverts_same_violated`).
* C44 `x64gen`: the condition is set in the destination's low byte, but the final extension reads the first source: wrong
  when the two registers differ (`X86.compare_violated`).
* C46 `x64gen`: `rbp` is among the registers that hold live values during a call; with two or more of them the frame pointer
  is lost for the rest of the function (`X86.callPreserves_violated`).
* C47 `x64gen`: a call inside the arguments of another call, after an odd number of words was pushed, has a misaligned stack
  (`X86.alignedNested_violated`).
* C49 `x64gen`: a local string whose length is 3, 5, 6 or 7 modulo 8 overwrites bytes after the array
  with 1 to 3 zero bytes. `stringPadded_partial` says exactly how many for every length, and that no
  further byte changes. For a plain `char s[n]` these bytes are padding (memory slots are multiples of
  4); for the last row of a two-dimensional array they need not be
  (`X86.stringExact_past_end_violated`), and bytes above 0x7f spoil the following bytes (`X86.stringExact_high_byte_violated`).
  In `int f(void){char a[2][5]={{"abcd"},{"efgh"}};return 0;}` the byte after the array belongs to the saved frame pointer:
  the compiled function returns to its caller with `rbp` 0x1200 instead of 0x1234 (`X86.C49_saved_register_violated`).
* C51 `register.c`: the 16-bit name of `r13` is `%r13q` (`X86.regNames_violated`).
* C16 `expression.c`: `parse_assignment_expr` parses a unary expression and, if no assignment operator follows, goes back and parses
  the same text again, so `x` in `d` pairs of parentheses takes exactly `68 * 2^d - 35` calls
  (`Parser.C16_nested_parentheses_cost`, `Parser.C16_polynomial_time_violated`).
* C59 `util.c`: an identifier that is a typedef name is always a type specifier, so it cannot be declared again in a block or as a
  struct member (`Parser.C59_inner_declaration_violated`, `Parser.C59_member_violated`). For the same reason an abstract function
  declarator that starts with a typedef name, as in `sizeof(int (T))`, is not read as C says; `Dtor.absOk` excludes it in C15/C17.
* C27 `declaration.c`: enumerator values are cut to 32 bits (`Res.C27_value_truncated_violated`); the successor of 2147483647 is computed
  with signed overflow (`Res.C27_largest_value_violated`). Only literals and enumerators are accepted as constants (not `-1` or `1+2`).
* C28 `declaration.c`: `resolve_zero_initializer` has no case for `long` and its relatives: `long a[2] = {1};` ends in the "unreachable" exit
  (`Res.C28_zero_fill_violated`); a string literal for an inner array is refused (`Res.C28_nested_string_violated`).
* C56 `statement.c`: labels are compared as written, before conversion to the type of the controlling expression, so two labels that are
  equal after conversion are accepted (`Res.C56_labels_not_converted_violated`). Negative labels are refused because they are not literals.
* C60 `declaration.c`: `struct E` after `enum E` reads through NULL (`Res.C60_enum_tag_violated`); using a typedef name whose declaration was
  refused reads through NULL (`Res.C60_refused_typedef_violated`); `typedef void V; V *p;` ends in the "unreachable" exit
  (`Res.C60_void_typedef_violated`); a struct that contains itself through an inner redefinition of its tag makes the compiler run for ever
  (`Res.C60_cyclic_struct_violated`).
* C61 `declaration.c`: array sizes are cut to `int` after the test for being positive (`Res.C61_size_truncated_violated`); through a typedef
  an array of functions is accepted (`Res.C61_array_of_functions_violated`).
* Seen in the resolver while modelling it, without theorems: prototypes followed by a definition, `p = 0`, `p == 0`, `&s.m`, struct
  assignment and conditional operands of type void are refused; `sizeof` has type `int`; structs are compared by tag name only; a
  pointer to the struct being defined has stride 0.
* C34 `immcgen/expression.c`: the product of a subscript with the element size is computed in the subscript's type, so `p + c` with
  `char c = 100` points below `p` (`Gen.C34_violated`).
* C34/C35/C55 `immcgen/util.c`: `gen_child_ptr_immcope` takes the register allocated last as the address; for a conditional expression
  or an assignment through a pointer that is another register than the one holding the value: `*(1 ? p : q)` reads through garbage
  (`Gen.C34_deref_violated`, `Gen.C35_violated`, `Gen.C55_violated`).
* C54 `immcgen/util.c`: of a chain of casts only the outermost is done: `(long)(char)300` is 300 (`Gen.C54_violated`,
  `Gen.C54_inner_ignored`).
* C30 resolver and `immcgen/expression.c`: a pointer difference has type `unsigned long long` and is divided as an unsigned number: `p - (p + 1)` is
  4611686018427387903 (`Gen.C30_violated`).
* C29 resolver: `E1 op= E2` is resolved as `E1 = E1 op E2`, so the side effects of E1 happen twice: `*p++ += 1` (`Res.C29_violated`).
* C52 `main.c`: the result of `fopen` for the output is not tested, so an output that cannot be created is written through NULL
  (`Main.C52_unwritable_violated`); results of `fprintf` and `fclose` are not tested, so a full device leaves part of the assembly and status 0
  (`Main.C52_full_device_violated`).
* C63 `x64/ope.c`, `x64/data.c`: operands are printed into 50 bytes and data into 200: a global variable with a name of 44 characters, or a string of 190
  characters, is written past the end of the buffer (`X64.C63_long_name_violated`, `X64.C63_long_string_violated`).
* C50 `immcgen/declaration.c`: a static initialiser that is not an integer literal under casts is read through NULL: `int x = -1;`
  (`Gen.C50_not_literal_violated`); inner casts are dropped: `int x = (char)300;` is 300 (`Gen.C50_casts_violated`).
* C37 `immcgen/declaration.c`: after a struct initialiser the running offset is at the end of the last member, not of the struct, so later elements of
  an array of structs with padding at the end are stored too early (`Gen.C37_tail_padding_violated`).
* C36 `immcgen/statement.c`: `case` labels are compared with the controlling expression without being converted to its type: `switch (0) case 4294967296L: x = 1;`
  sets `x` in C, and does nothing when compiled (`Gen.C36_violated`).
* C33 `immcgen/expression.c`: the code of `*(1 ? p : q)` reads a register that is not written on the path of the first arm (`Gen.C33_violated`); the code of `p + c`
  writes the register of `c` twice (`Gen.C33_once_violated`).
* C64: where C36 fails (`Gen.C64_violated`).
* C38, C41 `regalloc/regalloc.c`: since `JLT` and `JLEQ` are not taken for jumps, a register carried around a loop closed by `JLT` loses its place
  (`RSpec.C38_violated`, `RSpec.C41_violated`). The generator closes loops with `JMP` only, and its functions are safe (`Gen.C38_function_partial`).
* C62 `immcgen/expression.c`, `immcgen/declaration.c`: `(void)x;`, `*(char *)p` and `f().a` end in the `unreachable` exit, and the static initialisers `-1` and
  `"a"` (for a pointer) are read through NULL, in programs the resolver accepts (`Gen.C62_cast_statement_violated` and the others in `Props/Translate.lean`).
* C65: `return n++ < 3;` called with 5 returns 5 (`X86.C65_violated`); the cause is the `setcc` of C44.
* C66 `resolver/expression.c`: refused although C allows them: `p == 0`, `p = 0`, `c ? p : 0`, comparison with `void *`, assignment of structs, `&s.m`, casts of
  arrays, `a->m` with an array, `void` arms of `?:`. Accepted although C refuses them: `g().m = 1`, arithmetic on `void *`, `<` on functions. Wrong type:
  pointer differences (`unsigned long long`), `sizeof` (`int`), shifts (common type of both operands). `struct S *r;` in front of the definition of
  `struct S` keeps the size 0, so `r + 1` is `r`. Witnesses `Stat.C66_*_violated` in `Props/Static.lean`.
* C67 `resolver/external.c`, `resolver/declaration.c`: refused although C allows them: a definition after a prototype (`symboltable_can_define` is asked for any name, so a function cannot
  be called before its definition), any second declaration of a name, `typedef void F(int);`. Accepted although C forbids them: `typedef typedef int T;`, `int;`,
  a function definition whose type comes from a typedef name. Witnesses `Stat.C67_*_violated` in `Props/StaticUnit.lean`.
* C68: where C65 fails: the source text `int f(int n){return n++<3;}`, entered with 5, comes back with 5 instead of 0 (`X86.C68_violated`).
* C69: `"\a!"` is printed as `.ascii "\a!"`; the assembler drops the backslash of an unknown escape, the object holds the letter `a` (`Asm.C69_violated`, the whole way from the source text).
* C70: where C68 fails: a file with `int f(int n){return n++<3;}` (`Asm.C70_violated`).
* C72: compiling `int f(int*p,int x){return x-p[x+x]*(*p?1:x--);}` dereferences a NULL pointer in regalloc.c:285-289 (`C72_crash_violated`); compiling
  `int f(int*p,int*q,int x,int y,int z){while(*(p+(*q=x))=p[p[x]+*p]=x--);}` never ends, regalloc.c:170-184 (`C72_endless_violated`). Cause: map.c:83-105 adds a present key again when a deleted cell precedes it (C03).
* C73 in full (`C73_violated`): by C72's and C39's witnesses not every translated program gets through register allocation.
* C74 `x64gen/shrotinst.c:18-61`: `int f(int a,int b){return a<<b;}` is refused after register allocation (`C74_violated`). `x64gen/ctrlinst.c:142-154`: compiling `int g(int a);int f(int a){return a*(a-(a&(a^(a/(a%g(a))))));}` reads past the end of `CALLEE_SAVED_REG_IDS` (`C74_sharp`).
* C75 in full (`C75_violated`): `int x = -1;` is C, but the static initialiser is read through NULL in immcgen (C62), so not every program of C goes through.
