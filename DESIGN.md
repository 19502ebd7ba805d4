# Formal model of ruruby in Lean 4

`/repo` is read as text only; nothing in it was built or run. The model lives in
`/verif/lean/Verif/`. Every definition of the model carries a comment naming the file and
lines of `/repo` it transcribes and the simplifications made.

## Layout

* `Verif/<Area>/Model.lean`   – transcription of the code (definitions only)
* `Verif/<Area>/Spec.lean`    – small independent specification, when plain mathematics is not enough
* `Verif/<Area>/Lemmas.lean`  – helper lemmas
* `Verif/<Area>/Props.lean`   – the property theorems, with non-vacuity `example`s beside them

Small areas merge some of these files; property theorems always come last and are named
`Cnn_…` after the property in `properties.jsonl` they establish. When the code violates a
property, a theorem `Cnn_…_fails` (negation with a concrete witness) is kept next to the
`Cnn_…_partial` theorem that states what does hold.

## Conventions

* A Rust `panic!`/`unwrap`/index out of bounds/arithmetic overflow in a checked build is an explicit
  error value of the model, never a totalised default.
* `&mut self` becomes a returned new state; loops become structural/well-founded recursion or folds.
* `i64`/`usize` are `Int`/`Nat` with explicit range tests where the code tests or can overflow; machine words
  are `BitVec 64` where the property is about bits.
* `BigInt` (num crate), `IndexMap`, `Vec`, UTF-8 validation, IEEE arithmetic are third-party/std: their documented behaviour is assumed
  (`Int`, association lists, `List`, a predicate, bit patterns only).

## Plan per property

| id | what is modelled | how it is proved |
|----|------------------|------------------|
| C01 | `Value` packing on `BitVec 64` | round trip by bit extensionality; `-0.0` loses its sign in the code: negation + partial |
| C02 | tag tests on words | case analysis on low bits, injectivity from the round trips |
| C03 | `to_bool` mask test; `&`, `\|`, `^`, `!` of `true`, `false`, `nil` as instructions and as methods (`Value/Logic`) | bit reasoning over all words of each kind; truth tables for all right operands |
| C04 | tagged fixnum add/sub/mul/neg with checked i64 ops, bignum fallback | refinement to `Int` |
| C05 | `invoke_div`, `rem_*` | refinement to `Int.fdiv`/`Int.fmod`, uniqueness law |
| C06 | cmp/eq paths | refinement to `Int` order |
| C07 | `shl/shr` with Rust `checked_shl` semantics | law where it holds; negations with witnesses |
| C08 | Stein loop with i64 overflow rules | loop invariant on gcd |
| C09 | `checked_pow` with bignum fallback | refinement to `a^n` |
| C10 | `Integer#[]`, bitwise ops | `testBit` specification; negation for indices over 63 of negatives |
| C11 | `digits` loop | law for zero-free numbers, negation for interior zeros |
| C12 | iterators | equality with list of the progression |
| C13 | intern table | invariant over histories |
| C14–C16 | array get/set/splice | equality with a list specification |
| C17,C18 | IndexMap-backed hash | refinement by induction on histories; swap-remove breaks order: negation + partial |
| C19 | key equality/hash | equivalence relation by structural induction; representation dependence of short strings |
| C20–C22 | full TimSort port incl. error exits | permutation by invariant; sortedness and stability by induction over runs |
| C23 | binary search loop | loop invariant |
| C24,C25 | array builtins | equality with list functions; deque refinement; negations for the deviating ones |
| C26–C28 | page allocator with free list, mark phase, sweep | graph reachability + allocator invariant over histories |
| C29 | byte-level ISeq encoding | round trip lemmas |
| C30 | peephole pass on an instruction list/byte positions | simulation |
| C31,C32 | expression/statement compiler and stack machine | compiler correctness by induction on evaluation |
| C33 | jump table / hash dispatch vs sequential tests | equality on duplicate-free labels, negation for duplicates |
| C34 | scope chain resolution | induction on the chain |
| C35,C56 | class chain with include/prepend | list specification of ancestors |
| C36 | global and inline caches | coherence invariant over histories |
| C37 | constant search and cache | list specification, coherence; deviations recorded |
| C38,C39 | argument binding, splat expansion | equality with list specification |
| C40,C55 | flat word stack with frames | push/unwind inverse theorem for arbitrary nesting |
| C41 | frame move to heap | shared-variable refinement |
| C42,C43 | exception table search, unwinding; ensure code generation; the interpreter with a list of frames (`Unwind/Model`) | spec of innermost handler; ensure counter-examples; the frames do what the evaluation of the source says, by induction on the depth of calls (`Unwind`) |
| C44,C45 | fiber state machine | refinement to a stream |
| C46 | ranges | interval specification |
| C47,C48 | RString representations | bytes refinement, total order |
| C49 | operator-precedence parser on tokens | print/parse round trip by induction |
| C50 | number lexing | positional value; binary literal overflow recorded |
| C51 | line table | specification by newline counting |
| C52 | loaded-file set | invariant over histories |
| C53 | Comparable operators | decision table |
| C54 | block packing | round trip |
| C57 | ivar tables | map refinement |
| C58 | TAKE and assignment order | list specification |
| C59 | literal duplication | heap model; sharing of nested literals recorded |
| C60 | join/split | round trip |
| C61 | stack instructions | list equations |
| C62 | `each`, `map`, `select`, `reject`, `partition`, `inject`, `find`, … with an arbitrary block (state and exceptions) | equality with a monadic fold over the list |
| C63 | `slice!`, `*`, `-` of arrays | list equations |
| C64 | `merge`, `select`, `reject`, `compact`, `invert`, … | lookup equations over the hash model |
| C65 | `Codegen::gen` with all its error exits, whole code and tables | totality by induction on the tree; size bounds; exact characterization of rejected bodies |
| C66 | `vm_super`, lookup from a class upwards | list specification of ancestors; negation for two levels |
| C67 | class variables along the chain | map refinement along the superclass list |
| C68–C72 | string builtins | equality with list functions on characters; negations for the deviating ones |
| C73–C75 | lexer on character lists, `inspect` | longest match and round trip by induction on the text |
| C76 | parser ∘ compiler ∘ machine | composition of C49, C65 and C31; simulation with an evaluator by names (`Meaning/Named.lean`) |
| C77 | the same, with the optimizer and the arithmetic of C04–C09 | simulation between an evaluator on mathematical integers and the evaluator of C31, then C78 |
| C78 | shape of compiled code; optimizer | invariant kept by every emitting step; composition with C30 |
| C79 | the loops over matches, with the regex engine as a parameter under a contract (leftmost match from a position) | induction on the remaining length; uniqueness of the list of matches; `_fails` for empty matches and group expansion |
| C80 | complex values over `Real` with integer parts; specification is Mathlib's `ℤ√(-1)` | refinement: each method on the representation of z and w gives the representation of the result |
| C81 | `==` over a heap with identities; methods called are a parameter; specification: a tree of data (`Datum`) that a value holds | mutual induction on the tree; `_fails` for floats, cycles and own `==` methods |
| C82 | the interpreter of C31/C78 with a send that runs the callee's code in a new frame; specification: call by names (`Methods/Spec`) | induction on the depth of calls; the specification is monotone in what calls answer; C78 for each body |
| C83 | the interpreter with a frame for each call and each run of a block (`Blocks/Model`), variables under the height of their frame; specification: evaluation of source trees with blocks (`Blocks/Spec`) | simulation of the run of one frame by induction on the depth of nesting and the number of instructions; C78 for each body |
| C84 | the questions as walks over the class graph (`Class/Reflect`); specification: the history of definitions (`Class/Spec`) | the walk sees the visible cells of the chain (`upper_cases`), which the history determines (`Inv.chain`) |
| C85 | alias and module_function as a lookup and a definition (`Class/Reflect`) | the history of definitions after the alias has no newer one of that name; the method tables are what the history says |
| C86 | arrays with their storage (place, cells, length), loops by index and loops over a slice, blocks with any effect (`Arr/Mutate`); specification: `Visits`, the iteration as Ruby defines it | induction over the loop and over the iteration, both ways |
| C87 | writing and reading of decimal numbers, bytes and characters (`Str/Numbers`); specification: digit lists and their value (`Spells`, `value`) from the lexer's specification | induction over the digits |
| C88 | the scanner of formats and the directives (`Str/Format`), float digits a parameter; specification: formats as pieces and what each shows (`Formats`, `Shows`, `Fits'`) | induction over the pieces |
| C89 | the simple methods of String over texts and bytes (`Str/Parts`), `find` and `splitAll` of `Str/Split`; specification: the lists of characters and the ways to write a text as a concatenation | induction over the text |
| C90 | the class graph with the tables of variables and the copies `include` makes (`Class/Vars`); specification: `History`, the last assignment by a class below | invariant over the history: nobody below or above the owner has the variable |
| C91 | hashes with the storage of their entries (`Hash/Iterate`), loops over a slice, blocks with any effect; specification: `Visits` of C86 | induction over the loop |
| C92 | `std::path` components and the loops over them (`File/Paths`); specification: `place`, walking along the names of a text | cancelling `name/..` does not change where a path leads, by induction over the components |
| C93 | the translation of patterns, the regular expressions it makes, `traverse_dir` on any tree (`File/Glob`); specification: `Fn`, `Wanted`, `Exists_` | induction over the pattern, mutual induction over the tree |
| C94 | the builtin methods on a stack of words, `invoke_method` as a step function (`Dispatch/Calls`); specification: the method that is run, with receiver, arguments, block, keywords | the outcome does not depend on the stack below, by induction over the sizes of receiver and arguments |
| C95 | `val_inspect` and the functions it calls, on trees of data (`Inspect/Data`) | if two texts, followed by something that ends a literal, are the same, so are the data and the rests; mutual induction over the data |
| C96 | `def x.m` and `dup` on the class graph of C35 (`Class/Single`) | invariant over all histories: a singleton class serves the one object it was made for, and only those of classes are superclasses; a search that starts elsewhere then never meets it |
| C97 | the lexer functions for `%` literals over the characters of C74, and for here documents with positions in the whole text (`Lexer/Percent`) | induction on nested text; induction on the lines of a document and on the documents of a line |
| C98 | `raise`, the classes of errors, `eval_rescue` and the order of clauses, over the class graphs of C35 (`Class/Rescue`) | the walk of `eval_rescue` sees exactly the class ancestors; induction on clauses and on nested `begin`s |
| C99 | `define_class`, `set_const` with naming, over the class graphs of C35 (`Class/Open`) | constants and superclasses read off the history; induction on the steps of the program |
| C100 | the query methods of `builtin/array.rs` over stateful, raising calls (`Arr/Search`) | relation `Asks` (calls in order with their answers); induction on the array; `C24_retain` for the filters |
| C101 | `gen_send`, the instructions it emits and the stack discipline of `SEND`, over expressions as stateful, raising functions (`Dispatch/Send`) | relations `Evals`/`Raises` for the order of evaluation; induction over the argument lists; splat expansion from C39 |
| C102 | `Module#constants`, `const_get`, `const_defined?` on the class graph of C35 (`Class/Consts`) | the walk up the chain is the list of ancestors (C35's invariant); Object is found exactly once on it; history log as specification |
| C103 | `bsearch`, `bsearch_index` with an arbitrary block (`Arr/Bsearch`) | invariant of the bisection: everything left is refused, everything right accepted; the interval halves |
| C104 | `Struct.new`, `initialize`, accessors and `inspect` over the instance variables of C57 (`Ivar/Struct`) | induction over members and values; distinct members have distinct variables |
| C105 | decoded IEEE 754 bit patterns, `i as f64` to nearest even, `partial_cmp` and the comparison instructions (`Float/Model`) | order embedding into extended rationals; no float lies between neighbours of 53 bits, so rounding keeps the side |
| C106 | `Float#floor`, `to_i`, `abs`, `nan?`, `infinite?`, `Integer#to_f`, `Integer()` on decoded bit patterns (`Float/Model`) | floor and ceiling of rationals; nearest float by the gap between neighbours |
| C107 | `%` with floats over an arbitrary correctly rounding machine (`Float/Rem`) | `fmod` on a common exponent is the remainder of naturals; uniqueness of the remainder in its range |
| C108 | `puts`, `p`, `print`, `loop` over arbitrary `to_s`, `inspect` and blocks (`Kernel/Output`) | mutual induction over nested arrays; rounds of a block as an inductive relation |
| C109 | the words of a binding, moved by `set_iseq`, the frames around it, name resolution, texts as interaction trees (`Eval/Binding`) | refinement to scopes as lists of named variables, induction over texts and histories |
| C110 | `Real::quotient`, `Integer#div`, `Float#div`, `Integer#fdiv` over IEEE division with rounding to nearest (`Float/Div`) | floats between a quotient and the integer above it; the nearest float stays between floats |
| C111 | the code of `defined?` with labels and exception ranges, its instructions, receivers as steps that may raise and leave values (`Eval/Defined`) | compiler correctness by induction over expressions, against a direct meaning |
| C112 | `Time.utc`, `+`, `-`, `utc`, `year`, `month`, `day`, `==` (`Kernel/Time`) | day numbers of the Gregorian calendar with their inverse, against `nextDay`; exact float multiplication and division where the intermediate results are floats |
| C113 | the builtins that call a block, the temporary area and the roots of the collector (`Heap/Temps`) | objects carry the number of times their address has been freed; a block is any sequence of Ruby steps and of collections from the roots; invariant: everything reached from stack and temporary area is unfreed |
| C114 | the parser of string literals with templates, on top of the lexer (C74) and the parser of C49; code and instructions of such literals (`Parser/Interp`) | induction over the spelling of a literal: one token and the loops of the parser per part; the code against an inductive evaluation with any programs and `to_s` methods |
| C115 | interpreter loops with their own frames, builtin methods between them, leaving a block by `next`, `break`, `return` and exceptions, rescue clauses, `Proc` objects (`Blocks/Leave`) | simulation of an inductive meaning (rules for value, `next`, `break`, `return`, exception) by induction over its derivations, with any frames below; the other direction by strong induction over the number of steps; uniqueness by monotonicity in the bound of steps |
| C116 | cells and the separate allocations they refer to, so that sharing is possible; `new`, `dup`/`clone` of each kind, writes (`Copy/`) | invariant over all histories: no allocation belongs to two objects (but the tables of copied classes); view of an object as a program sees it |
| C117 | `regex::escape`, the replacement of a final `\Z`, the table of compiled patterns, the options of literals; the compiler of patterns is a parameter (`Regexp/Pattern`) | patterns that denote one text, as a relation; induction on texts; invariant of the table over all histories |
| C118 | `main`, `execute`, `exit`, `abort`, `at_exit`; a program is the list of its acts; the compiler and the files are parameters (`Kernel/Exit`) | a course (acts that run, act that ends) as a relation; induction on the acts |
| C119 | `checked_gc`, `check_gc`, the flag and thresholds that start a collection, the methods of `GC`, over the allocator of C26–C28 (`Heap/Control`) | transition system over all histories; potential function for the allocations left before a collection is due |
| C120 | addresses of cells, `from_inner`, `get_data_ptr`, the index and bit in `gc_check_and_mark`, `object_id`, `equal?` (`Heap/Address`) | arithmetic of 64-bit words for any page base; no aliasing of words from C02; live cells from the allocator's invariant |
| C121 | `read_regexp_sub`, `check_postfix`, `get_regexp` (`Lexer/Regexp`) | inductive relation between texts of literals and patterns, from Ruby's rules; the reader follows it, by induction |
| C122 | `read_method_name`, `read_symbol_literal`, `parse_symbol` (`Lexer/Symbol`) | the grammar of names and of what may follow them as inductive relations; reader sound and complete for them |
| C123 | `array_new`, `array_elem`, `array_allocate`, `toa`, `kernel_array` (`Arr/Make`) | memory as a list of arrays; Ruby's rule as a relation; results fresh, by cases |
| C124 | `get_global_var`, `get_special_var`, `emit_set_special_var`, `read_global_var` (`Regexp/Vars`) | histories of steps; Ruby's rule (last match of each frame) as a function of the history; induction over it |
| C125 | `exception_new`, `exception_allocate`, `eval_initialize` with `super`, `message`, `to_s`, `inspect` (`Class/Exn`) | both the code and Ruby run the same `initialize` methods; they agree by induction over the classes and statements |
| C126 | bodies of classes with `def`, `public`/`private`/`protected`, `module_function`, the flag of the frame and the two method tables (`Class/Visible`) | Ruby's tables with visibility as specification; the code's tables are those without it, by induction over the body |
| C127 | `Kernel#sleep` over the floats of C105 and a clock that waits at least as long as it is told (`Kernel/Sleep`) | cases over the decoded float |
| C128 | `Kernel#gets` over what is left of the input, characters and stray bytes (`Kernel/Gets`) | the lines of a text are specified apart and shown unique; induction over them |
| C129 | `freeze`, `frozen?`, `dup`, `push`, `instance_variable_set` over a heap of arrays (`Kernel/Freeze`) | Ruby's behaviour is a separate relation with the set of frozen objects, under which frozen objects are shown to stay; induction over its runs |
| C130 | the loop of `invoke_repl` over the events of the line editor, with any parser and any interpreter (`Kernel/Repl`) | a session is specified as a sequence of entries; induction over it, and every input is shown to be one |
| C131 | `Process.clock_gettime` and `Process.pid` (`Kernel/Process`) | any rounding that keeps the order and the integers below 2^53; the second and the fraction are compared apart |
| C132 | character literals, with the look at the next token that the parser takes for the position (`Lexer/CharLit`) | the specification of escapes is the one of C74; letters, operators, characters beyond ASCII and escapes without a condition on what follows |
| C133 | `File.write`, `read`, `binread`, `readlines` over any resolution of paths to places (`File/Contents`) | induction over the history of writes; paths without `..` are passed on unchanged |

Not expressible in an executable model and therefore left out of every theorem: machine-code context
switching of fibers (`coroutine/asm_*.rs`), memory safety of raw pointers as such, wall-clock time, file-system
contents, floating-point rounding, the third-party regex engine.

## Trusted base

* Lean 4.33.0's kernel, which checks every theorem. No `sorry`, no `admit`, no axiom of our own, no `native_decide`, no
  `bv_decide`, no `implemented_by`, no `unsafe`, no `extern`. `decide` and `decide +kernel` are used only on closed finite facts (tables of
  the code, witnesses of negations, non-vacuity examples) and are evaluated by the kernel.
* Axioms: `propext`, `Classical.choice`, `Quot.sound` and no others. Of the 980 theorems named in `MANIFEST.json` at the time of writing,
  13 depend on no axiom, 111 on `propext`, 238 on `propext` and `Quot.sound`, 618 on all three
  (obtained with `#print axioms` on each of them).
* Mathlib, one module at a time, for lists, integers, bit vectors and relations; its theorems are checked by the same kernel.
* The transcription: that the definitions in the `Model.lean` files (and the other files listed below as models) say what the
  cited lines of `/repo` do. It was made by reading; nothing was executed.
* The specifications: `Spec.lean` files and the definitions used in the statements of the theorems.

### Assumed of code that is not ours

| used by | assumed |
|---|---|
| Arith, Value | `num::BigInt` is `Int` (arithmetic, comparison, `to_i64`, shifts, bit operations as documented); `checked_*` of Rust's `i64` |
| Hash | `IndexMap`/`FxIndexSet`: an association list in insertion order; `swap_remove`, `insert`, `entry` as documented; hashing itself is abstract |
| Arr, Str | `Vec`, `VecDeque`, slices as lists; `str::split`, `trim_*`, `chars`, `char::from_u32` as documented; `String::from_utf8` decides validity of UTF-8 |
| Lexer | `char::is_alphanumeric` and `is_ascii_*`: ASCII ones as defined, the rest an arbitrary predicate (`Unicode`); `parse_bytes` of BigInt is positional value |
| Sort | the comparison callback is an arbitrary function with state and exceptions |
| Codegen (VM) | `World`: everything an instruction does beside control flow, stack and local variables is an arbitrary state transformer; its laws are the five fields `binI_eq`, `cmpI_eq`, `indexI_eq`, `setIndexI_eq`, `exc_thrown` (an instruction with an immediate operand does what the general one does with that operand), which are facts about `ops.rs` proved for integers in `Arith` |
| Fiber | the context switch (`asm_*.rs`) transfers control and one word |
| Loader | the file system is a function from paths to contents |
| Regexp | crate `fancy_regex`: asked at a position between characters it finds the leftmost match from there on (`Finds`), inside the text and between characters (`Fits`); asked past the end it has no answer |
| Complex | parts that are floats end in the error `unmodelled` |
| Eq | the method `==` of user classes, `===` of modules, the comparison of two hashes, regexps and times are parameters; arrays are not changed by a method `==` while they are compared |
| Unwind | as for Methods; exceptions are the only jumps between frames (no blocks) |
| Methods | the methods of the program are found on every object; calls of other methods are a parameter; the stack does not overflow |
| Blocks | required parameters only; blocks do not become objects (`&block`, `Proc`), so no frame moves to the heap; builtin methods that call blocks are part of the parameter `base`; the stack does not overflow |
`Floats.write`: the digits of a float for a given precision (Rust's formatting) are a parameter.
As for arrays (C86): entries move only when a push finds the vector full.
`std::path` on Unix: `components`, `push`, `pop`, `file_name`, `extension`; the working directory and the home directory are canonical paths.
The file system does not change meanwhile; no symbolic links, unreadable directories or names that are not UTF-8; the crate `regex` on expressions made of characters, `.`, `.*` and `(?:[^\\.].*)?`.
| Kernel/Time | the library chrono: its calendar is taken to be the Gregorian one, its instants nanoseconds; leap seconds and the text of a time are not modelled |
| Heap/Temps | that the mark phase reaches what the model calls reached (C26, C27); the moment of a collection is arbitrary; the buffers of arrays whose length a block changes are C86 |
| Parser/Interp | the code of an embedded program is one instruction that does what the program does (C76, C77); the text of an immediate value is fixed |
| Blocks/Leave | code is a list with the branches inside the instruction (C31: jumps); a method or block has one parameter and no variables, what is shared is in the world (C41, C83); no exceptions and ensure clauses (C42, C43) |
| Copy | small arrays and strings in the cell are treated like boxes; ranges, regexps, procs, times, exceptions and bindings (never changed in place) and `initialize` are not in the model; hash keys compared by identity (C17) |
| Regexp/Pattern | the crate `fancy_regex` (what a pattern matches) is a parameter; `regex::escape` is modelled from the version in Cargo.lock |
| Heap/Control | one interpreter (each fiber has its own counter of checks); the amounts taken from the system are arbitrary |
| Heap/Address | the order of a page's fields is any that keeps both inside the page and apart; the system's pages are aligned, different and not null |
`thread::sleep` waits at least as long as told
| Heap | memory is a map from addresses to cells; pages do not move |

### What is modelled

| directory | code of `/repo` |
|---|---|
| Value | `value/value.rs` packing, tags, truthiness |
| Arith | `vm/executor/ops.rs`, `arith.rs`, `value/real.rs` on integers; `builtin/integer.rs`, `builtin/numeric.rs` (shifts, bits, gcd, pow, digits, iterators) |
| IdTable | `id_table.rs` |
| Arr | `value/array.rs`, most of `builtin/array.rs` |
| Hash | `value/hash.rs`, `builtin/hash.rs`, key equality in `value/value.rs`, `rvalue.rs` |
| Sort | merge sort of `vm/executor/opt_core.rs`/`builtin/array.rs` and comparison-driven builtins |
| Heap | `alloc.rs`, mark functions of `rvalue.rs`, `coroutine.rs`, `frame.rs` |
| ISeq | `vm/iseq.rs` encoding and `optimize`, `vm_inst.rs` |
| Codegen | `codegen.rs` (`gen`, `gen_assign*`, `gen_comp_stmt`, `case`, `begin`, loops, jumps, `new_iseq`), the instructions of `opt_core.rs` they use, `run_loop` exception search |
| Class | `value/class.rs`, `globals/method.rs` caches, `constants.rs`, `vm_super` |
| Args | `frame/arg_handler.rs`, `lvar_collector.rs`, argument layout |
| Frame | `vm/executor/frame.rs`, `frame/ruby_stack.rs`, `method.rs` calls, block capture |
| Range, Comparable, Ivar, Literal, Source, Loader, Stack | the files of the same name |
| Str | `value/string.rs`, most of `builtin/string.rs` |
| Fiber | `coroutine.rs`, `builtin/fiber.rs`, `builtin/enumerator.rs` |
| Lexer, Parser | `ruruby-parse/src/parser/lexer.rs`, `expression.rs`, `flow_control.rs`, `parser.rs`, `define.rs` (expressions, statements and `def` with required parameters) |
| Regexp | `builtin/regexp.rs` (loops over matches), their callers in `builtin/string.rs`, `get_captures` |
| Complex | `builtin/complex.rs`, complex operands in `builtin/numeric.rs`, `to_complex`, `==` between complex numbers |
| Eq | `eval_eq2`, `eval_eqi`, `invoke_teq`, `eval_teq` (`vm/executor/ops.rs`), `include?` and `count` of arrays |
| Unwind | `run_loop` with several frames: `dispatch!`, `RETURN`, the search for a handler through the frames |
| Methods | `DEF_METHOD`, `vm_send` for methods of the program, `invoke_method`, the frame of a method with required parameters |
| Blocks | calls with blocks, `YIELD`, `RETURN`, `BREAK`, `MRETURN`, `vm_yield`, `invoke_block`, `push_block_frame_fast`, `prepare_block_args`, the part of `run_loop` for exceptions and `MethodReturn` |
| Pipeline, Meaning | how these are put together (`executor.rs:271-286`) |

### What is not modelled

* `builtin/`: `file.rs`, `dir.rs`, `io.rs`, `time.rs`, `process.rs`, `math.rs`, `structobj.rs`, most of `kernel.rs`,
  `module.rs`, `object.rs` (only the parts used above), `gc.rs`; floating-point arithmetic.
* Parser: blocks and lambdas, `def` with other than required parameters, `class`/`module`, heredocs, percent literals, hashes literals, string interpolation inside
  expressions, `case`, `begin`, `for`, newline as a separator, the `rescue` modifier.
* Compiler: blocks, `def`, `class`, interpolation, hash literals, splats, keyword arguments and block arguments of calls, `super`, `yield`, `defined?`
  (the argument and frame conventions of these are modelled in `Args` and `Frame`, not their code).
* `perf.rs`, `repl.rs`, diagnostics text, the debugger output.
* In the compiler model the operand stack does not overflow (`Stack` and `Frame/Overflow` treat its bound separately), and errors carry no position.

## Where the code breaks a property

Proved (`…_fails` theorems with a concrete input, beside the `_partial` theorem that says what does hold):
* `C01_float_roundtrip_fails` — C01 fails in the code for `-0.0` (stored as `0.0`) and for `2^-255` (its packed word is the one reserved for `0.0`).
* `C02_no_alias_fails` — C02 without the side condition fails: `0.0` and `2^-255` are one word.
* `C07_shl_fails` — C07 fails in the code for left shifts that overflow 64 bits with an amount below 64: `2**61 << 2` is negative.
* `C07_shr_fails` — C07 fails in the code for negative numbers shifted right by 64 or more: `-1 >> 64` is 0 instead of -1.
* `C07_huge_amount_fails` — C07 fails in the code for huge amounts: `-1 >> 2**62` is 0 instead of -1, and `0 << 2**62` raises instead of being 0.
* `C09_pow_fails` — C09 in full fails: from exponent `2^32` on the code leaves the integers, e.g. for `1 ** (2**32)`.
* `C10_index_fails` — C10 fails in the code for a negative small receiver at position 64: `-1[64]` is 0 instead of 1.
* `C10_xor_not_fails` — C10 fails in the code for `^` and `~` on big integers: NoMethodError.
* `C11_digits_fails` — C11 fails in the code as soon as a digit is zero: `10.digits` is `[0]` (value 0), `101.digits` is `[1]`.
* `C12_big_fails` — C12 fails in the code for big receivers (the interpreter panics) and big limits (TypeError).
* `C15_range_fails` — C15 fails in the code for ranges that end before the beginning (Rust panic, instead of `[]`) and for ranges that start before the beginning (`[]` instead of `nil`).
* `C15_window_fails` — C15 fails in the code when the start is outside: `[1][5, 1]` and `[1][-5, 1]` are `[]` instead of `nil`.
* `C17_hash_as_key_fails` — C17 fails for hashes as keys: after `h[{1=>2, 3=>4}] = v` the equal key `{3=>4, 1=>2}` finds nothing, for every hash function that tells the two token sequences apart.
* `C18_delete_fails` — C18 fails when a key other than the last is deleted: the others change their order.
* `C19_hash_of_hash_fails` — C19 fails for hashes as keys: `{1=>2, 3=>4}` and `{3=>4, 1=>2}` are `eql?`, but the hasher is fed different tokens (the entries in insertion order), so one is not found under the other.
* `C19_string_fails` — C19 fails for strings: the same characters held in a `String` and in a small string are different keys. Such strings arise: `s[0, 39] = ""` on a string of 40 characters leaves a `String` of one (see `C47`).
* `C24_drop_fails` — `drop(n)` with `n` at least the size raises instead of returning `[]`.
* `C24_transpose_error_fails` — The check is skipped when the first row is empty.
* `C25_shift_n_fails` — C25 fails in the code for `shift(n)` with `n` above the size: nothing is removed, `[]` is returned.
* `C26_unmarked_holders_fails` — C26 fails for these: the program still has `Binding#receiver`, the fiber's `self`, `UnboundMethod#owner`, the object named by the singleton class, the block to yield to; and a collection frees it.
* `C31_rescue_as_operand_fails` — And a `rescue` clears the whole operand stack of the frame (`frame.rs:669-677`), so that `[1, begin … rescue … end]` finds too few operands.
* `C31_unused_bignum_fails` — Without the restriction to supported programs, C31 is false: a big literal whose value is not used leaves it on the operand stack (`codegen.rs:597-625`), and `[1, (2**64; 2)]` returns `[2**64, 2]`.
* `C33_duplicate_labels_fails` — C33 is false of the code in general: with duplicate labels the last branch wins (`codegen.rs:1208-1240`: `map.insert`).
* `C33_float_subject_fails` — … and `1 === 1.0` although the two are different hash keys and integers are compared by value only with integers (`opt_core.rs:457-474`).
* `C33_no_subject_fails` — … and a `case` without subject asks for all conditions of a branch instead of one (`codegen.rs:1270-1290`).
* `C35_include_after_prepend_fails` — A module included after a prepend comes before the prepended modules and the class: with method 7 in `C` and in the module `N` included later, a call on an instance of a subclass runs the method of `N`.
* `C35_prepend_to_receiver_fails` — A module prepended to the class of the receiver itself does not override its methods: with method 7 in `C` and in the prepended `M`, a call on an instance of `C` runs the method of `C`.
* `C35_self_include_fails` — Including a module in itself never returns, however long one waits; Ruby refuses it with an exception.
* `C35_singleton_object_fails` — An ordinary object with a singleton class answers to the instance methods of `Class` (class 3), although `Class` is not among its ancestors.
* `C35_include_order_fails` — `include A, B` puts `B` before `A` among the ancestors, so the method of `B` is run; in Ruby `A` comes first.
* `C35_prepend_order_fails` — The same for `prepend A, B`.
* `C35_include_error_fails` — `C.include(A, Object)` raises a TypeError but leaves `A` included.
* `C36_singleton_of_singleton_fails` — Making the singleton class of a singleton class changes where the search for an object with a singleton class falls back to (`C35_singleton_object_fails`), but does not advance the version count: a call instruction calls the method it called before.
* `C36_wraparound_fails` — After 2^32 method definitions the version count is back where it was, and a call instruction calls the method it called before them, which has been replaced. (A debug build stops at the overflow instead.)
* `C37_class_body_fails` — In the body of `class C < B`, where `self` is `C` and its class is `Class`, a constant of `B` is not found.
* `C37_include_stale_fails` — After `C` includes a module with the constant, a place that looked it up before still has the old value (20), although the search finds the new one (10).
* `C37_inherited_scope_fails` — `C::X` does not find the constant `X` of the superclass of `C`.
* `C37_shared_slot_fails` — A method of `B` that was called on an instance of its subclass `D` first answers with the constant of `D` (20) also when it is called on an instance of `B`, although the search finds 10 and no class includes anything.
* `C37_subclass_instance_fails` — A method of `B` called on an instance of its subclass `D` takes the constant of `D`, where Ruby takes that of `Object`.
* `C38_block_abort_fails` — **C38 fails**: a block with more trailing parameters than arguments aborts the program (`|a, b = 0, c, d|` called with 1; also `|*a, b, c|` called with 1).
* `C38_block_array_fails` — **C38 fails** for blocks with one required parameter and a rest parameter: `|a, *r|` called with the array `[1, 2]` binds `a` to the whole array.
* `C38_block_post_fails` — **C38 fails** for blocks with a parameter after an optional one: `|a, b = 0, c|` called with 1 binds `c` to 1 and `a` to nil instead of `a` to 1 and `c` to nil; called with 1, 2, 3, 4, 5 it binds `c` to 5 instead of 3.
* `C38_keyword_after_star_fails` — **C38 fails** for a keyword parameter after a bare `*`: in `def f(*, k: 0); x = nil; … end` the call `f(k: 5)` leaves `k` without a value (so that its default is used) and stores 5 in the variable `x`. Without the further variable the value is written outside of the frame.
* `C38_keywords_to_plain_method_fails` — **C38 fails** when keyword arguments are given to a method with only required parameters (`def f(a)`): `f(k: 1)` should bind `a` to the hash `{k: 1}` and raises ArgumentError instead; and `f(5, k: 1)`, which has one argument too many, is accepted and the keyword argument is lost.
* `C38_missing_keyword_fails` — **C38 fails** for a keyword parameter without default: `def f(k:)` may be called as `f()`; the parameter is then left without a value instead of an ArgumentError being raised.
* `C39_empty_range_fails` — **C39 fails** for just empty ranges: `f(*(1...1))` and `f(*(1..0))` abort the program (a subtraction below zero) instead of passing no argument.
* `C39_nil_fails` — **C39 fails** for nil: `f(*nil)` passes nil instead of no argument.
* `C41_stale_variables_fails` — **C41 is false of the code** (2). `move_ep_to_heap` (`vm/executor/frame.rs:777-797`) moves the frames on the way from the captured frame outwards. Another frame that is running in the same outer frame keeps the old address of the outer frame. What it writes is lost: `x` is 7 at the end, not 55.
* `C41_yield_in_lambda_fails` — **C41 is false of the code** (1). A block given to a method is recorded as a position in the stack (`Block::Block`, `vm/args.rs:5-10`). If the method makes a lambda that yields, and the lambda is called when the frames are gone, the block runs with the variables of another method: it reads 9, the variable `y` of `other`, not 7, the variable `x`.
* `C43_break_fails` — `break` (and `next`).
* `C43_exception_in_rescue_fails` — An exception raised by a rescue clause.
* `C43_nested_return_fails` — `return` through two clauses: only the inner one runs.
* `C43_return_in_rescue_fails` — `return` in a rescue clause.
* `C43_unrescued_exception_fails` — C43 is false of the code on the other ways out. An exception that no rescue clause is written for: Ruby prints 3, the code does not.
* `C44_double_resume_fails` — **C44 is false for double resume**: a fiber that resumes itself (or one of its resumers) does not raise FiberError; control goes to a stack pointer that is not a saved context.
* `C46_big_bounds_fails` — **C46 is false for large bounds**: the elements of a range with a bound beyond 63 bits cannot be listed (the interpreter aborts), and `first` aborts.
* `C47_joined_bytes_fails` — **Violation**: two strings that are not text each may make text together; the result is then still unusable for the methods that read text with `as_str` (`strip`, `ord`, `succ`, the separator of `join` and `split`, …): they panic.
* `C47_self_append_fails` — **Violation**: `s << s` leaves a small string unchanged instead of doubling it.
* `C49_assign_argument_fails` — **C49** fails beyond the trees above: an assignment among arguments swallows the arguments after it. `f(x = 1, 2)` passes one argument, the array `[1, 2]`.
* `C49_assign_literal_fails` — A number can be assigned to.
* `C49_break_while_fails` — `break while x` is not a `break` with a modifier: the parser reads `while` as the start of its value.
* `C49_mul_assign_scope_fails` — The targets of a multiple assignment are not known in its values, although the target of a single one is: `x, y = x, 1` calls a method `x`.
* `C49_not_fails` — There is no `not`: `not x` calls a method of that name.
* `C49_paren_mul_assign_fails` — `x = (a, b = 1, 2)` is a syntax error.
* `C49_power_minus_fails` — `-x` as the right operand of `**`, or as the operand of `!`, `~` or `+`, makes the parser panic.
* `C49_rescue_else_fails` — After the name of a method, `rescue` and `else` are taken for the start of its arguments.
* `C49_safe_command_fails` — `y&.x 1` is read as `y.x(1)`: it is no longer a safe navigation.
* `C49_scope_space_fails` — `A :: B` is read as the call `A(::B)`, not as the constant `B` of `A`.
* `C49_trailing_space_fails` — A program that ends with the name of a method and a space is refused, although without the space it is not.
* `C49_unclosed_call_fails` — A call without its closing parenthesis is accepted at the end of a program.
* `C50_bin_fails` — A binary literal of 64 digits denotes a negative number.
* `C51_last_line_fails` — **C51 is false on an unterminated last line**: whatever comes before it, it is reported as line 1.
* `C51_multibyte_end_fails` — **Reporting a location aborts the interpreter** on the last line of a text that ends, without a newline, with a character of several bytes.
* `C53_big_result_fails` — **C53 is false for large results**: `<=>` gives an integer `c ≥ 2^62`; `>` and `<` abort the interpreter, and none of `==`, `<=`, `>=` holds.
* `C53_incomparable_fails` — Objects that `<=>` cannot compare (it gives nil): `<` aborts the interpreter instead of raising.
* `C54_handle_fails` — **C54 fails** for code ids from 2^30 on, which do not fit in the 63 bits of a packed integer: the block is read back as another block, or as no block.
* `C56_module_fails` — `x.is_a?(M)` is false for a module `M` that the class of `x` includes, although `M` is among its ancestors.
* `C56_prepended_class_fails` — After a module is prepended to `K`, instances of subclasses of `K` are no longer `is_a?(K)`.
* `C57_packed_fails` — **C57 is false for integers, symbols and nil**: using an instance variable in their methods reads memory at an address that is none, and an `attr_writer` aborts.
* `C59_nested_fails` — **C59 is false for nested literals**: `def f; [[1]]; end; f[0] << 2; f` gives `[[1, 2]]`. The first result is object 2, its element is object 0; after the change the second evaluation contains it again.
* `C59_string_in_array_fails` — The same for a string in an array: `def f; ["a"]; end; f[0] << "b"; f` gives `["ab"]`.
* `C60_leading_blank_fails` — … and `split` with a blank drops white space at the front.
* `C60_leading_empty_fails` — **Violation**: `join` leaves the separator out as long as the result is empty, so an empty string at the front disappears without a trace.
* `C64_select_identity_fails` — C64 fails for `select` on an identity hash: it collects into an ordinary hash, so two entries whose keys are equal but not identical become one.
* `C66_module_skipped_fails` — With method 7 defined in `B < Object`, in `C < B` and in the module `M` that `C` includes, `super` inside the method of `C` calls the method of `B`, although that of `M` comes first.
* `C66_second_super_fails` — With method 7 defined in `A < Object`, `B < A` and `C < B`, `super` inside the method of `B`, called on an instance of `C`, finds the method of `B` again instead of that of `A`: the receiver's class and the name alone decide.
* `C68_assign_negative_fails` — **Violation**: a negative index, which means a character from the end, raises IndexError.
* `C68_exclusive_range_fails` — **Violation**: `s[a...b]` contains the character at `b`.
* `C68_range_past_end_fails` — **Violation**: a range that reaches behind the end gives nil instead of the rest.
* `C70_last_char_fails` — **Violation**: `succ` of the character U+10FFFF alone, and of U+D7FF alone, panics; the tables of `succ_char` hold UTF-8 byte values where code points are meant.
* `C73_global_underscore_fails` — A global variable whose name starts with an underscore is read as `$_` and something else.
* `C73_identifier_fails` — A name of two letters that are not ASCII is read as two names.
* `C73_power_assign_fails` — There is no `**=`: the text is read as `**` and `=`.
* `C74_byte_fails` — In an escape, `\x80` to `\xff` give a character, and so two bytes of the string, not the byte they spell.
* `C75_inspect_fails` — The inspected form of the string `#{x}` is read as an interpolation, which evaluates `x`.
* `C76_op_assign_once_fails` — **C76** is false of `p(7)[0] += 1`: the tree of the target is copied, and `p` is called twice.
* `C78_optimizer_completes_fails` — **C78** is false of `while (next; true); end`: the code begins with a jump to itself, and no number of steps is enough for the pass that follows the jumps; the process hangs when this text is compiled, even if it would never run.
* `C79_gsub_every_match_fails` — `"abc".gsub(/x*/, "-")` misses the empty match at the end of the text.
* `C79_gsub_expands_groups_fails` — `gsub` takes `\1` in the replacement literally.
* `C79_gsub_block_end_fails` — `"abc".gsub(/x*/) { … }` asks the matcher for a position past the end.
* `C79_scan_stops_fails` — `"abc".scan(/x*/)` never ends.
* `C79_sub_keeps_backslash_fails` — in the replacement of `sub` a backslash before a non-digit is dropped.
* `C79_match_position_fails` — `=~` counts bytes, not characters.
* `C79_match_optional_group_fails` — `match` panics if a group took no part in the match.
* `C80_big_operand_fails` — `Complex(1, 2) + 2**62` raises TypeError.
* `C80_eq_integer_fails` — `Complex(4, 0) == 4` is false.
* `C80_rect_fails` — `Complex.rect(2**62)` raises TypeError.
* `C80_div_fails` — the quotient of complex numbers is rounded down.
* `C80_div_zero_fails` — dividing by `Complex(0, 0)` panics.
* `C81_float_fails` — with floats `==` is not transitive (`2**53 == 2.0**53 == 2**53+1`).
* `C81_big_float_fails` — `2**62 == 2.0**62` is false.
* `C81_nan_fails` — a NaN equals itself if it is the same object.
* `C81_cyclic_fails` — comparing two arrays that contain themselves does not end.
* `C81_own_method_fails` — `obj == x` does not call the object's `==` if `x` holds an immediate value, but `obj == 1` does. For such objects the law `cmpI_eq` assumed of the World in C31 (literal and variable operands compare alike) does not hold.
* `C81_raise_fails` — an exception raised in a method `==` is dropped.
* `C81_send_fails` — `"ab".send(:==, "ab")` is false.
* `C83_break_ends_the_call_fails` — `break` in such a block goes on in the method that has called it, without pushing a value (`BREAK` in `opt_core.rs` if the frame was pushed by the same loop): later instructions find the operand stack one value short.
* `C83_return_ends_the_method_fails` — `return` in a block that a method has called with `yield` goes on in this method, after the `yield` (`run_loop` removes frames down to the next one that is not of a block). `def f; yield; 7; end; def g; f { return 5 }; 8; end; g` is 8 instead of 5.
* `C84_mutual_modules_fails` — modules that include each other are accepted, and each is said to be above the other: `M <=> N` and `N <=> M` are both 1.
* `C84_include_itself_fails` — `M.include?(M)` is true for every module.
* `C84_included_modules_fails` — a class to which a module was prepended is in its own `included_modules` (the dummy that `append_prepend` makes has the flag of an included module).
* `C84_owner_fails` — the owner of `x.method(m)` is the copy of the module that `include` linked in, an object the program never made; it is not `==` to the module.
* `C84_singleton_methods_fails` — `x.singleton_methods` makes a singleton class, after which `x` responds to the instance methods of `Class`.
* `C86_select_fails` — `a.select { |x| a.push(x); true }`: after the first push past the capacity the elements are read from memory that is not the array's any more (so in `reject`, `partition`, `find`, `any?`, `all?`, `inject`, `flat_map`).
* `C86_cleared_elements_fails` — `a.select { |x| a.clear; true }` still visits and selects the elements that were removed.
* `C86_map_bang_fails` — `a.map! { |x| a.clear; x }` panics.
* `C86_bsearch_fails` — `a.bsearch { |x| a.clear; false }` panics.
* `C87_big_fails` — for every integer outside 64 bits `n.to_s.to_i` is 0 and `Integer(n.to_s)` raises.
* `C87_prefix_fails` — `"12abc".to_i`, `" 12".to_i` and `"1_2".to_i` are 0.
* `C87_chr_ord_fails` — `n.chr.ord` panics for every n in 128..255.
* `C88_negative_hex_fails` — `"%x" % -1` is `ffffffffffffffff`.
* `C88_string_width_fails` — the width of `%s` and `%c` is ignored.
* `C88_precision_fails` — the precision of integers is ignored.
* `C88_float_precision_fails` — `%f` without a precision writes no decimals.
* `C88_refused_fails` — integers of more than 63 bits and the flags `-`, `+`, space are refused.
* `C89_count_fails` — `"hello".count("ll")` is 4 and `"hello".count("a-z")` is 0.
* `C89_tr_fails` — `"hello".tr("el", "ip")` is `hiplo`.
* `C89_chomp_fails` — `"a\n\n".chomp` is `a` and `"a\r\n".chomp` is `a\r`.
* `C89_bytes_fails` — on strings of raw bytes `size` and `chars` raise, `codepoints` panics.
* `C90_lexical_fails` — a class variable belongs to the class of `self`: `class A; def put; @@x = 1; end; def look; @@x; end; end; class B < A; end; B.new.put; A.new.look` raises a NameError.
* `C90_module_fails` — `include` copies the class variables of a module.
* `C90_overtaken_fails` — after a later assignment further up, two variables exist side by side.
* `C90_class_variables_fails` — `class_variables` raises without an argument, and panics with `true`.
* `C91_add_fails` — a block that adds a key can make `each` read freed memory.
* `C91_delete_fails` — a block that removes a key can make an entry be visited twice.
* `C91_string_key_fails` — a string used as a key and changed later cannot be found any more under its old text.
* `C92_tilde_fails` — `File.expand_path("a/~")` is the home directory.
* `C92_home_parent_fails` — `File.expand_path("~/../x")` is `x` in the working directory.
* `C92_basename_fails` — `File.basename` of `/`, `a/..` and `a/.` is nil, nil and `a`.
* `C92_dirname_fails` — `File.dirname` of `a` and of `/` is empty; `File.join("", "a")` is `a`.
* `C93_hidden_fails` — `*.rb` and `?rb` find the hidden file `.rb`.
* `C93_deep_fails` — `**/**/a` does not find `a`.
* `C93_line_feed_fails` — `a*` does not find a file with a line feed in its name.
* `C93_slash_fails` — `a/` finds nothing.
* `C94_send_missing_fails` — `send` does not call `method_missing`.
* `C94_send_keywords_fails` — `send` drops keywords.
* `C94_missing_block_fails` — `method_missing` does not get the block.
* `C94_no_method_fails` — an unknown method raises NameError, never NoMethodError, as the builtin `method_missing` compares the receiver with itself.
* `C94_bind_call_fails` — `bind_call` drops the block.
* `C94_bind_fails` — `bind` takes an object of any class.
* `C94_to_proc_fails` — `:m.to_proc.call(x, y)` is `x.m`.
* `C94_each_symbol_fails` — `3.times(&:to_s)` aborts.
* `C95_symbol_fails` — `[:"a, :b"]` and `[:a, :b]` have the same `inspect`.
* `C95_cycle_fails` — `inspect` of two arrays that contain each other does not end.
* `C96_dup_fails` — `y = x.dup` keeps the singleton methods of `x`, and `def y.m` defines `m` for `x` too.
* `C96_dup_class_fails` — a method defined in `C.dup` can be called on instances of `C`.
* `C97_q_fails` — `%q(a\)b)` keeps the backslash.
* `C97_tab_fails` — a tab does not separate words in `%w`.
* `C97_blank_fails` — `\ ` in `%w` splits the word and keeps the backslash.
* `C97_kinds_fails` — `%W`, `%I`, `%s` and `%x` are refused, whatever their text.
* `C97_squiggly_fails` — `<<~A` keeps the indentation of the lines.
* `C97_eof_fails` — `<<` at the end of the program panics.
* `C98_module_fails` — `rescue M` for an included module `M` never matches.
* `C98_prepended_fails` — `rescue K` does not match subclasses of `K` once a module was prepended to `K`.
* `C98_string_fails` — `raise "x"` raises a `StandardError`, not a `RuntimeError`.
* `C98_class_message_fails` — `raise C, "x"` ignores the class.
* `C98_again_fails` — `raise` without arguments does not raise the current exception again.
* `C98_library_fails` — `LoadError`, `StopIteration` and `Math::DomainError` have the wrong superclass.
* `C98_message_fails` — the message of an error of the interpreter starts with the name of its class.
* `C99_value_fails` — `class X` where `X` is not a class or module stops the interpreter (Ruby: TypeError).
* `C99_nil_fails` — `class A < nil` is taken as a class statement without superclass (Ruby: TypeError).
* `C99_singleton_fails` — a singleton class is accepted as superclass (Ruby: TypeError).
* `C99_anonymous_fails` — a class bound to a constant of a class without name stays without name when that class is named.
* `C100_grep_fails` — `grep` takes an exception of `===` for "does not match" and goes on.
* `C100_min_fails` — `min` compares the nearest floats: `[2**53 + 1, 2**53].min` is `2**53 + 1`.
* `C100_flat_map_fails`, `C100_flat_map_rest_fails` — `[[1]].flat_map { |a, b| … }` stops the interpreter; `|a, b, *c|` gets no further elements.
* `C100_uniq_bang_fails` — if the block of `uniq!` raises, the array is left in another order.
* `C101_safe_arg_fails`, `C101_safe_nil_arg_fails`, `C101_safe_block_fails`, `C101_safe_unused_fails`, `C101_safe_eq_fails` — `&.` tests the last thing pushed, not the receiver, so `nil&.m(1)` calls `m` of nil and `3&.m(nil)` does not call; the statement `nil&.m` leaves a value on the stack; the test is the `==` of the receiver.
* `C101_empty_splat_fails` — `m(**{})` passes a hash.
* `C101_many_fails` — with 65536 arguments the last one becomes the receiver.
* `C101_super_block_fails`, `C101_implicit_super_fails`, `C101_block_super_fails` — `super` drops blocks and keywords, does not compile with `&b`, passes a rest parameter as one array, and in a block passes the variables of the block.
* `C102_twice_fails` — a constant that a subclass defines again is listed twice.
* `C102_object_fails` — once a module was prepended to Object every class lists the constants of Object.
* `C102_prepended_fails` — `const_get` takes the constant of the class before that of a prepended module.
* `C102_module_fails` — a module does not find constants of modules that Object includes.
* `C102_own_defined_fails` — `const_defined?(name, false)` is true for inherited constants.
* `C103_any_fails` — `[1, 2, 3].bsearch { |x| 2 <=> x }` is nil, Ruby finds 2.
* `C103_shrink_fails` — a block that shortens the array makes the search stop the interpreter.
* `C104_duplicate_fails` — `Struct.new(:a, :a)` is accepted, Ruby raises ArgumentError.
* `C104_subclass_fails` — creating an object of a class below a struct class stops the interpreter.
* `C105_mixed_fails` — `2**53 + 1 == (2**53).to_f` is true, so `==` is not transitive; Ruby compares exactly.
* `C106_saturate_fails` — `1e20.to_i` is 9223372036854775807.
* `C106_nan_fails` — not-a-number becomes 0 and infinity the largest i64; Ruby raises.
* `C106_round_trip_fails` — `(2**53 + 1).to_f.to_i` is 2**53 (the bound of the round trip is sharp).
* `C107_zero_fails` — a zero divisor raises (Ruby: NaN), and an operand that is no number stops the interpreter.
* `C108_newline_fails` — `puts "a\n"` writes two newlines.
* `C108_print_fails` — `print` drops what standard output does not take at once.
* `C108_shift_fails` — `$stdout << s` panics if `s` is a string of bytes.
* `C108_subclass_fails` — a subclass of StopIteration is not caught by `loop`.
* `C108_result_fails` — `loop` gives nil for the result of an enumerator.
* `C14_before_start_fails` — `a[i] = v` before the beginning raises RangeError, never IndexError.
* `C58_repeated_target_fails` — `a, a = 1, 2` leaves 1 in `a`.
* `C58_value_fails` — the value of `a, b, $c = 1, 2` is `[1, 2, nil]`.
* `C109_second_new_variable_fails` — the second new variable of a text holds an old word (in a fresh binding: self) before it is assigned; the fill loop of `set_iseq` does not advance.
* `C109_many_variables_fails` — the 64th variable of a binding is written outside its words.
* `C109_nested_call_fails` — after a nested evaluation in the same binding and a call of a method, the outer text goes on in the inner one's code.
* `C110_large_integers_fails` — `(2**53 + 1).div(1)` is `2**53`; integers are divided as floats.
* `C110_close_fails` — `1.0.div(0.1)` is 10, the quotient rounded down is 9.
* `C110_infinite_fails` — `div` of an infinite float or NaN stops the interpreter (`from_f64(..).unwrap()`).
* `C111_assignment_fails` — `defined?(x += 1)` sets `x` to nil.
* `C111_operand_fails` — an operand of an operator that raises is not caught.
* `C111_leftover_fails` — after an exception in a receiver the arguments already pushed stay on the stack.
* `C111_short_circuit_fails` — `defined?(a && b)` looks for a method `&&` and is nil.
* `C111_unset_local_fails` — an optional parameter before its default is no local variable.
* `C111_class_variable_fails` — every class variable is defined.
* `C112_eight_fails` — `Time.utc` with eight arguments is a panic.
* `C112_wrap_fails` — `Time.utc(2**32 + 2000)` is in the year 2000.
* `C112_carry_fails` — the hour 24 and the 29th of February 2001 are refused.
* `C112_far_fails` — `Time.utc(2000) - Time.utc(1700)` is a panic.
* `C112_large_fails` — `t + 2**60` is a panic.
* `C112_equal_fails` — a local time is not equal to the same instant in UTC.
* `C112_fraction_fails` — `t + 2**-31` is `t`.
* `C113_uniq_fails` — `[1, 2].uniq { |x| x.to_s }` compares with a key that the collector may have freed.
* `C113_select_fails` — `a.select { |x| a[0] = nil; true }` may return a freed object.
* `C113_sort_fails` — `a.sort { |x, y| a.clear; 1 }` may return freed objects.
* `C113_enumerator_each_fails` — `each`, `map` and `with_index` of an enumerator do not protect the local variables of the enumerated method.
* `C113_map_values_fails` — `[1].map { |x| foo(&obj); 7 }` returns a Proc and 7 when `obj` needs `to_proc`.
* `C113_released_fails` — the Procs made for `&obj` are kept until the surrounding builtin returns.
* `C114_ivar_fails` — `"#@a"` is a Rust panic in the code generator.
* `C114_special_fails` — `"#$1"` and `"#@@a"` are a Rust panic in the parser.
* `C114_hash_fails` — `"#@ "` is a syntax error.
* `C114_nested_fails` — `%Q(#$x (c) d)` ends at the first `)`.
* `C114_level_fails` — `%Q((#$x) #$y)` has no end.
* `C114_beside_fails` — `%Q(#$x) "#$y"` has no end.
* `C114_to_s_fails` — a `to_s` that does not return a string makes a literal a Rust panic.
* `C115_unused_call_fails` — `def f; 1.times { return 10 }; end; 1 + (f; 2)` is 12: the value of a call that is not used stays among the operands.
* `C115_lambda_return_fails` — `return` in a lambda ends the method that called the lambda (a debug build panics).
* `C115_proc_return_fails` — `return` in a `proc` ends the method that called it instead of the one it is written in.
* `C115_passed_on_break_fails` — `break` in a block that a method passes on with `&b` ends the inner call, not the outer one.
* `C116_class_fails` — a copy of a class shares its methods: after `d = c.dup`, a method defined in `d` is there in `c` too.
* `C116_fiber_fails` — a copy of a fiber or enumerator is marked as one, but its state is never written: resuming it reads memory that was not initialized.
* `C116_subclass_fails` — a copy of an array or hash loses its class and its instance variables.
* `C116_hash_default_fails` — `Hash.new(0)` is an ArgumentError.
* `C117_text_fails` — a text that ends with `\Z` (a backslash and a Z) is not found: the end of the escaped text is taken for the anchor, and the pattern matches the text with `\z` instead.
* `C117_backslash_fails` — the same for patterns that end with an escaped backslash and `Z`.
* `C117_new_fails` — `Regexp.new(s)` is compiled without the option for lines that literals have: `^` and `$` mean something else, and it is not `==` to the literal.
* `C118_status_fails` — the status is 0 after `exit(n)` for every n and after every unrescued exception.
* `C118_load_fails` — and when the program cannot be found or read.
* `C118_at_exit_fails` — blocks given to `at_exit` never run.
* `C118_exit_writes_fails` — `exit` writes an error message, also with code 0.
* `C118_argv_fails` — with `-e`, `ARGV` is not defined.
* `C119_previous_fails` — `GC.enable` and `GC.disable` answer the opposite of what Ruby answers, in every state.
* `C119_start_fails` — while collection is off, `GC.start` does nothing; Ruby collects.
* `C120_object_id_fails` — `0.0` and one tiny float have the same identity (the aliasing of C02).
* `C121_group_fails` — `\2` to `\7` become control characters (`'1' >= ch` for `'1' <= ch`).
* `C121_nul_fails` — `\0` is handed on as it is.
* `C121_stray_fails` — behind a `]` that closes nothing, `\b` is the backspace.
* `C121_bracket_fails` — an interpolation makes the reader forget that it is inside brackets.
* `C121_options_fails` — only one option letter is read: `/a/im` leaves the `m` behind.
* `C122_equal_fails` — `:a==b` is read as `:a=` and `=b`; so is `:a=~b`.
* `C122_global_fails` — `:$x` is a syntax error.
* `C122_at_fails` — `:!@` and `:~@` leave the `@` behind.
* `C122_end_fails` — a program that ends in `:` or `:=` makes the parser panic (`error_unexpected` at the end of the text).
* `C123_block_fails` — `Array.new(n) { … }` does not call the block.
* `C123_size_fails` — `Array.new(2**60)` panics.
* `C123_float_fails` — `Array.new(2.0)` is a TypeError.
* `C123_order_fails`, `C123_subclass_fails`, `C123_result_fails` — `Array(x)` tries `to_a` before `to_ary`, copies an array of a subclass, and does not check that it got an array.
* `C124_failed_fails` — a match that fails leaves `$&` and the others as they were.
* `C124_called_fails` — a match inside a method changes `$&` of its caller.
* `C125_super_fails` — with `def initialize(x); super("no " + x); end` the message is `x`.
* `C125_default_fails` — with `def initialize; super("text"); end` the message is the name of the class.
* `C125_arguments_fails` — an exception class whose `initialize` takes two arguments, or something else than a string, cannot be made.
* `C125_assign_fails` — after `e.message = v`, `to_s` and `inspect` still tell the old message.
* `C125_allocate_fails` — the message of `E.allocate` is empty.
* `C126_private_fails` — `private` and `protected` do nothing: every method can be called from outside.
* `C126_module_function_fails` — the methods stay public in instances, and `public` does not end `module_function`.
* `C126_unknown_fails` — `private :unknown` is accepted.
* `C127_large_fails` — `sleep(1e20)` and `sleep(Float::INFINITY)` panic.
* `C127_nan_fails` — `sleep(Float::NAN)` panics.
* `C127_forever_fails` — `sleep` without argument returns at once.
* `C127_round_fails` — the result is the time without its fraction, not the rounded time.
* `C128_end_fails` — at the end of the input `gets` returns an empty string, not nil.
* `C128_loop_fails` — `while line = gets` never ends.
* `C129_change_fails` — frozen objects are changed like all others; there is no FrozenError.
* `C129_frozen_fails` — `frozen?` is always false, also for numbers and symbols.
* `C130_again_fails` — an entry that raises the error of an unfinished text while it runs (`x += 1; eval("(")`) shows nothing and is run again with the next line.
* `C131_pid_fails` — `Process.pid` is the address of a function of the Rust library, not the number of the process.
* `C131_which_fails` — the argument of `clock_gettime` is ignored, all clocks are the one since the start.
* `C132_quote_fails` — `?"` with no other quotation mark behind it panics: the position is taken from the next token, which is an unfinished string.
* `C132_variable_fails` — `?@` and `?$` at the end of the text panic the same way.
* `C132_name_fails`, `C132_blank_fails`, `C132_control_fails` — `?ab` and `? ` are accepted, `?\C-a` is the string `C`.
* `C133_link_fails` — `write` uses the path as it is, `read` removes `..` from the text of the path first: behind a link, what was written is not found.
* `C133_lines_fails` — `readlines` drops the newlines and adds an empty line at the end.
* `C107_fails` — `4.5 % -2.0` is 0.5 (Ruby: -1.5): the formula for integers is used for floats of different signs.

Seen while reading, and avoided by the hypotheses of the theorems or outside the model:

* Arithmetic: `rem` of floats; `Real::neg` on the least `i64`; comparisons of integers with floats lose precision; `min`/`max` through `f64`; packed and heap numerics of
  the same value are not `==`.
* Arrays and hashes: `a[i] = v` before the start raises RangeError; `f(**{})` passes an extra `{}`; method objects compare by address.
* Compiler: the ends of a range are evaluated end first; `+v` does not call `+@`; `x op= v` compiles the target twice (exponentially when nested) and `x += 1` on a new `x`
  calls a method `x`; multiple assignment goes from right to left and its value is padded with nils; the value of `a.b = v` is what the setter returns; a big integer
  as label of a `case` with integer labels never matches, nor does a range; a safe navigation with arguments tests the last argument; argument counts are cut to 16 bits;
  `next`/`break` as operands leave operands on the stack; a `def` in a loop that contains `break` confuses the outer loop.
* Calls: keywords through `...` become a positional hash; `super` without arguments passes keyword slots positionally and passes no block.
* Blocks and frames: `Binding#local_variable_set` initializes only the first new variable, and more than 64 variables are out of bounds; a block without parameters but with local variables gets the resume value in the first.
* Classes: `include A, B` puts `B` first; including again moves a module; `Module#dup` shares the method tables; `instance_method` shows the included copy;
  class variables of an included module live in a copied table; method caches are not traced by the collector.
* Exceptions: `==` on objects turns exceptions into `false`; a StopIteration raised inside an enumerated method ends `each` silently.
* Loading: a file that failed to load is remembered and never tried again; `load` and the main script count as required; `require "a.b"` loads `a.rb`.
* Strings: `s << s` on a long string reads freed memory; `s << n` appends a byte; `s[i, 0] =` underflows; `s[len, n]` is nil; `chomp` removes all newlines; `slice!(str)` removes
  every occurrence; `to_i` of a big number is 0; `tr` is plain replacement.
* Source locations: an empty first line prints an extra newline.
* Lexer and parser: `1e` at the end panics; `017` is decimal; `\u{…}` is not supported; `f(1` is accepted; `1 = 2` is accepted.
* Names: the reserved slots 30–39 of the id table hold empty names.
* The operand stack of 8192 words is not checked for overflow.
