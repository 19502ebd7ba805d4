{"id": "C01", "title": "Immediate values survive being stored", "statement": "Storing an Integer that fits in 63 bits, a Symbol, true, false, nil or a Float into a variable and reading it back gives the same value, bit for bit for floats.", "quantifier": "every 63-bit integer, every symbol id, every 64-bit float pattern", "why_tests_cant": "2^63 integers and 2^64 float patterns; the packing is bit twiddling whose corner cases (sign, exponent window, zero) are easy to miss by sampling", "anchors": ["ruruby/src/value/value.rs: Value::integer, fixnum, float, symbol, as_fixnum, as_flonum, as_symbol"]}
{"id": "C02", "title": "Distinct immediates never alias", "statement": "Two values of different kinds (Integer, Float, Symbol, true, false, nil, heap object) are never represented by the same machine word, and two different payloads of one kind never are either; a heap reference is never mistaken for an immediate.", "quantifier": "all pairs of values", "why_tests_cant": "pairs of 64-bit words cannot be enumerated", "anchors": ["ruruby/src/value/value.rs: Value tag constants, is_packed_value, is_fnum, is_packed_num, is_packed_symbol"]}
{"id": "C03", "title": "Only nil and false are falsy", "statement": "A conditional treats a value as false exactly when it is nil or false; every Integer (also 0), every Float, every Symbol and every object is true. With true, false or nil on the left, &, | and ^ give the conjunction, disjunction and exclusive or of the truth of both sides, and ! the negation; called with send, they give the same.", "quantifier": "every value word a program can hold", "why_tests_cant": "2^64 words and a masked comparison", "anchors": ["ruruby/src/value/value.rs: Value::to_bool"]}
{"id": "C04", "title": "Integer +, -, *, unary - are exact", "statement": "For all integers a and b, of any size, a+b, a-b, a*b and -a evaluate to the mathematical result: no overflow is ever visible, results that leave the 63-bit range become big integers and results that come back become small ones.", "quantifier": "all pairs of integers of unbounded size, whichever of the small/big representations they use", "why_tests_cant": "boundary behaviour at +-2^62 and +-2^63 on tagged words; infinitely many pairs", "anchors": ["ruruby/src/vm/executor/ops.rs: invoke_add, invoke_sub, invoke_mul, invoke_neg and the immediate forms", "ruruby/src/value/value.rs: Value::integer, Value::bignum"]}
{"id": "C05", "title": "Integer division and remainder obey the floor law", "statement": "For all integers a and b with b != 0, a == (a/b)*b + a%b, a%b is zero or has the sign of b and |a%b| < |b|; with b == 0 ZeroDivisionError is raised instead of crashing.", "quantifier": "all pairs of integers", "why_tests_cant": "sign combinations times unbounded sizes", "anchors": ["ruruby/src/vm/executor/ops.rs: invoke_div, invoke_rem", "ruruby/src/arith.rs: rem_fixnum, rem_bignum"]}
{"id": "C06", "title": "Integer comparison is a total order that agrees with equality", "statement": "On integers <, <=, >, >=, ==, != and <=> agree with the mathematical order regardless of representation; exactly one of a<b, a==b, a>b holds.", "quantifier": "all pairs of integers", "why_tests_cant": "infinitely many pairs and four representation combinations", "anchors": ["ruruby/src/arith.rs: cmp_fixnum, cmp_bignum", "ruruby/src/vm/executor/ops.rs: eval_lt, eval_le, eval_gt, eval_ge, eval_eq"]}
{"id": "C07", "title": "Shifts multiply and divide by powers of two", "statement": "a << n equals a * 2**n and a >> n equals floor(a / 2**n) for every integer a and every integer shift n (negative n shifts the other way).", "quantifier": "all integers a, all shift amounts", "why_tests_cant": "unbounded shift amounts; overflow and sign extension corner cases", "anchors": ["ruruby/src/arith.rs: shl_fixnum, shr_fixnum, shl_fixnum_sub, shr_fixnum_sub", "ruruby/src/builtin/integer.rs: shl, shr"]}
{"id": "C08", "title": "gcd and lcm are correct", "statement": "a.gcd(b) is the non-negative greatest common divisor and a.lcm(b) the non-negative least common multiple, for all integers including zero, negatives and values near the 64-bit limit.", "quantifier": "all pairs of integers", "why_tests_cant": "binary gcd loop of unbounded length, overflow at the edge", "anchors": ["ruruby/src/arith.rs: safe_gcd, safe_lcm, safe_gcd_lcm", "ruruby/src/builtin/integer.rs: gcd, lcm, gcdlcm"]}
{"id": "C09", "title": "Integer power is exact", "statement": "a ** n for a non-negative integer n equals the n-fold product of a, however large.", "quantifier": "all bases and all non-negative exponents", "why_tests_cant": "overflow detection on an unbounded domain", "anchors": ["ruruby/src/arith.rs: exp_fixnum", "ruruby/src/builtin/integer.rs: exp"]}
{"id": "C10", "title": "Bit operations follow two's complement", "statement": "a[i], a & b, a | b, a ^ b, ~a and bit_length follow the infinite two's complement reading of the integers.", "quantifier": "all integers and bit positions", "why_tests_cant": "infinitely many bit positions; sign extension", "anchors": ["ruruby/src/vm/executor/ops.rs: invoke_bitand, invoke_bitor, invoke_bitxor, invoke_bitnot, get_index", "ruruby/src/builtin/integer.rs: index, bit_length"]}
{"id": "C11", "title": "Integer#digits lists the positional digits", "statement": "n.digits(b) is the list of base-b digits of n, least significant first, so that summing d_i*b^i gives n back.", "quantifier": "all non-negative n, all bases >= 2", "why_tests_cant": "unbounded n; interior zero digits", "anchors": ["ruruby/src/builtin/integer.rs: digits"]}
{"id": "C12", "title": "Integer iteration visits exactly the arithmetic progression", "statement": "n.times, a.upto(b), a.downto(b) and a.step(limit, s) call the block once for every element of the documented progression, in order, and return the receiver.", "quantifier": "all bounds and steps", "why_tests_cant": "unbounded ranges, direction and off-by-one cases", "anchors": ["ruruby/src/builtin/integer.rs: times, upto, downto, step, PosStep, NegStep"]}
{"id": "C13", "title": "Symbols are interned", "statement": "Two symbols or identifiers are the same object exactly when their names are the same string, and the name read back from a symbol is the name it was created from, whatever was interned before or after.", "quantifier": "every sequence of intern operations and every name", "why_tests_cant": "histories of unbounded length", "anchors": ["ruruby-common/src/id_table.rs: IdentId::get_id, get_name, IdentifierTable"]}
{"id": "C14", "title": "Array element read and write", "statement": "a[i] returns the i-th element counting from the end for negative i and nil outside; a[i]=v changes exactly that element, grows the array with nils when i is past the end, and raises IndexError when i is before the beginning.", "quantifier": "all arrays, all indices", "why_tests_cant": "unbounded lengths and indices", "anchors": ["ruruby/src/value/array.rs: get_elem_imm, get_elem1, set_elem_imm, set_elem1, get_array_index"]}
{"id": "C15", "title": "Array slices read the documented window", "statement": "a[start,len] and a[first..last] return the elements of the window clipped to the array, and nil when the window starts outside the array.", "quantifier": "all arrays, starts, lengths, ranges", "why_tests_cant": "unbounded parameters; boundary start == size, negative ends", "anchors": ["ruruby/src/value/array.rs: get_elem, get_elem1"]}
{"id": "C16", "title": "Array slice assignment splices", "statement": "a[start,len]=v replaces exactly the clipped window by the elements of v, leaves everything else in place and pads with nil when start is past the end.", "quantifier": "all arrays, starts, lengths, replacement values", "why_tests_cant": "unbounded parameters", "anchors": ["ruruby/src/value/array.rs: set_elem2"]}
{"id": "C17", "title": "Hash behaves as a finite map", "statement": "After any sequence of store, delete and clear operations h[k] is the value most recently stored under a key equal to k and not deleted since, and nil if there is none; size counts distinct keys.", "quantifier": "every history of hash operations", "why_tests_cant": "histories of unbounded length", "anchors": ["ruruby/src/value/hash.rs: HashInfo::insert, get, remove, len, clear", "ruruby/src/builtin/hash.rs: delete, clear"]}
{"id": "C18", "title": "Hash iterates in insertion order", "statement": "keys, values, each, to_s list the entries in the order in which their keys were first inserted; overwriting keeps the position, deleting one entry does not change the order of the others.", "quantifier": "every history of hash operations", "why_tests_cant": "histories of unbounded length", "anchors": ["ruruby/src/value/hash.rs: HashInfo::insert, remove, keys, values, iter", "ruruby/src/builtin/hash.rs: merge, select, reject, invert"]}
{"id": "C19", "title": "Hash key equality is an equivalence that hashing respects", "statement": "eql? on the built-in key types is reflexive, symmetric and transitive, and equal keys hash equally, so a stored entry is always found again.", "quantifier": "all pairs and triples of keys", "why_tests_cant": "arbitrarily nested keys", "anchors": ["ruruby/src/value/value.rs: HashKey PartialEq/Hash, Value::eql", "ruruby/src/value/rvalue.rs: Hash for HashKey", "ruruby/src/value/string.rs: RString"]}
{"id": "C20", "title": "sort returns an ordered permutation", "statement": "Sorting an array whose elements are consistently comparable returns exactly the same elements in non-descending order.", "quantifier": "all arrays of any length and all consistent comparators", "why_tests_cant": "run detection, merging and galloping behave differently per length and per pre-existing order", "anchors": ["ruruby/src/vm/executor/opt_core.rs: merge_sort, insert_head, merge, collapse", "ruruby/src/vm/executor.rs: sort_array"]}
{"id": "C21", "title": "sort is stable", "statement": "Elements that compare equal keep their relative order.", "quantifier": "all arrays, all comparators that are weak orders", "why_tests_cant": "needs equal elements in every position of every merge", "anchors": ["ruruby/src/vm/executor/opt_core.rs: merge_sort"]}
{"id": "C22", "title": "sort never loses or duplicates an element, even if comparison raises", "statement": "Whatever the comparison does (inconsistent answers, or raising midway) the array being sorted holds a permutation of its original elements afterwards.", "quantifier": "all arrays, all comparators including inconsistent and raising ones, every point of failure", "why_tests_cant": "the failure can strike at any comparison", "anchors": ["ruruby/src/vm/executor/opt_core.rs: InsertionHole, MergeHole, merge"]}
{"id": "C23", "title": "Binary search finds the first match", "statement": "For a predicate block that is monotone over the array, bsearch returns the first element satisfying it, and nil if there is none.", "quantifier": "all arrays, all monotone predicates", "why_tests_cant": "index arithmetic of a loop of unbounded length", "anchors": ["ruruby/src/builtin/array.rs: bsearch, binary_search"]}
{"id": "C24", "title": "Array rearrangements are what they claim", "statement": "rotate!(n), reverse, uniq, compact, flatten, zip, transpose, partition, first(n), last(n), drop(n) return the documented sequence built from the receiver's elements.", "quantifier": "all arrays and parameters", "why_tests_cant": "unbounded lengths, nesting and parameters", "anchors": ["ruruby/src/builtin/array.rs: rotate_, reverse, uniq, compact, ary_flatten, zip, transpose, partition, first, last, drop"]}
{"id": "C25", "title": "Array push/pop/shift/unshift form a deque", "statement": "Any sequence of push, pop, shift and unshift operations behaves like a double-ended queue: pop returns the newest at the back, shift the element at the front, pop(n)/shift(n) return up to n elements in order and remove them.", "quantifier": "every history of deque operations", "why_tests_cant": "histories of unbounded length", "anchors": ["ruruby/src/builtin/array.rs: push, pop, shift, unshift"]}
{"id": "C26", "title": "Garbage collection never frees a reachable object", "statement": "An object that the program can still reach from a root keeps its cell and its contents across any number of collections.", "quantifier": "every heap graph, every root set, every sequence of allocations and collections", "why_tests_cant": "cycles, depth and sharing of arbitrary graphs; long histories", "anchors": ["ruruby/src/alloc.rs: Allocator::alloc, gc, gc_check_and_mark, sweep", "ruruby/src/value/rvalue.rs: GC for RValue"]}
{"id": "C27", "title": "Allocation never hands out a cell that is in use", "statement": "Every allocation returns a cell that is not referenced by any live object; two live objects never share a cell.", "quantifier": "every history of allocations and collections", "why_tests_cant": "free list, bump pointer and page reuse over unbounded histories", "anchors": ["ruruby/src/alloc.rs: Allocator::alloc, sweep, dealloc_empty_pages"]}
{"id": "C28", "title": "Garbage is reclaimed", "statement": "After a collection every unreachable cell is available for allocation again (no leak), and the free count reported is exact.", "quantifier": "every heap graph and root set", "why_tests_cant": "arbitrary graphs", "anchors": ["ruruby/src/alloc.rs: sweep, gc"]}
{"id": "C29", "title": "Bytecode operands and jumps decode to what was encoded", "statement": "Every operand written into an instruction sequence is read back unchanged, and a jump patched to a label lands on that label, forward or backward.", "quantifier": "all operand values, positions and displacements", "why_tests_cant": "32/64-bit ranges", "anchors": ["ruruby/src/vm/iseq.rs: ISeq::push16, push32, push64, read16, read32, read64, write_disp, gen_jmp_back"]}
{"id": "C30", "title": "The peephole optimizer preserves behaviour", "statement": "Running an optimized instruction sequence has the same observable effect as running the unoptimized one.", "quantifier": "every instruction sequence and every initial state", "why_tests_cant": "unbounded programs with arbitrary jump graphs", "anchors": ["ruruby/src/vm/iseq.rs: ISeq::optimize"]}
{"id": "C31", "title": "Compiled expressions compute their source meaning", "statement": "Compiling an expression or statement and running the bytecode yields the value and variable updates that evaluating the source tree does, and leaves the operand stack balanced.", "quantifier": "all programs of the modelled subset (literals, locals, arithmetic, comparison, and/or/not, if, while/break/next, sequencing, assignment, arrays)", "why_tests_cant": "unbounded nesting", "anchors": ["ruruby/src/codegen.rs: Codegen::gen, gen_comp_stmt, gen_if, gen_while, gen_jmp_if_false", "ruruby/src/vm/executor/opt_core.rs: run_context_main"]}
{"id": "C32", "title": "Short-circuit evaluation", "statement": "a && b and a || b evaluate b only when needed and yield the last evaluated operand; a ||= b assigns only if a is falsy.", "quantifier": "all operand expressions and states", "why_tests_cant": "unbounded expressions with effects", "anchors": ["ruruby/src/codegen.rs: BinOp::LAnd, BinOp::LOr", "ruruby-parse/src/parser/expression.rs: parse_assign_op"]}
{"id": "C33", "title": "case/when picks the first matching branch", "statement": "A case expression executes the body of the first when clause one of whose labels matches the subject by ===, else the else branch; table-driven dispatch used for literal labels makes no difference.", "quantifier": "all label lists and all subjects", "why_tests_cant": "unbounded label lists; duplicates; integer ranges of the jump table", "anchors": ["ruruby/src/codegen.rs: NodeKind::Case", "ruruby/src/vm/executor/opt_core.rs: OPT_CASE, OPT_CASE2"]}
{"id": "C34", "title": "A local variable reference reaches the innermost enclosing definition", "statement": "Inside nested blocks a name resolves to the variable of the innermost scope that defines it; distinct variables of one scope never share a slot.", "quantifier": "all scope nestings and all name sequences", "why_tests_cant": "unbounded nesting and numbers of variables", "anchors": ["ruruby/src/codegen.rs: get_local_var", "ruruby-common/src/lvar_collector.rs: LvarCollector"]}
{"id": "C35", "title": "Method lookup follows the ancestor order", "statement": "A call runs the first definition found in: prepended modules, the class, included modules latest first, then the same for the superclass. Several modules in one `include` or `prepend` come in the order in which they are written.", "quantifier": "all class hierarchies and all include/prepend histories", "why_tests_cant": "arbitrary hierarchies", "anchors": ["ruruby/src/value/class.rs: ClassInfo::search_method, append_include, append_prepend, ancestors", "ruruby/src/builtin/module.rs: include, prepend"]}
{"id": "C36", "title": "Method caching is invisible", "statement": "The result of a method lookup through the global or inline cache equals the lookup without cache, after any history of definitions, redefinitions, includes and calls.", "quantifier": "every history of (re)definitions, includes, prepends and lookups", "why_tests_cant": "stale entries only show up in particular histories", "anchors": ["ruruby/src/globals/method.rs: MethodRepo::find_method, find_method_inline_cache, inc_class_version"]}
{"id": "C37", "title": "Constant lookup follows lexical then ancestor scope", "statement": "A bare constant resolves to the innermost lexically enclosing class or module that defines it, then to the ancestors, then Object; a cached reference gives the same answer as an uncached one.", "quantifier": "all nestings, all definition histories", "why_tests_cant": "stale caches only show up in particular histories", "anchors": ["ruruby/src/vm/executor/constants.rs: find_const, get_super_const", "ruruby/src/globals/constants.rs: ConstCache"]}
{"id": "C38", "title": "Arguments bind to parameters as declared", "statement": "A call with required, optional, rest and post parameters binds leading arguments to required parameters, then optional ones left to right, the surplus to the rest array, and trailing ones to the post parameters; a wrong number of arguments raises ArgumentError for methods and lambdas and is padded or truncated for blocks.", "quantifier": "all parameter lists and all argument counts", "why_tests_cant": "combinatorial in four counters and the argument list", "anchors": ["ruruby/src/vm/executor/frame/arg_handler.rs: fill_positional_arguments, prepare_block_args", "ruruby/src/vm/executor/frame/arg_handler.rs: push_method_frame_slow"]}
{"id": "C39", "title": "Splat arguments expand in place", "statement": "f(a, *b, c) passes the elements of the array b, or of the integer range b, between a and c.", "quantifier": "all argument lists with any number of splats", "why_tests_cant": "unbounded lists", "anchors": ["ruruby/src/vm/executor.rs: pop_args_to_array", "ruruby/src/vm/executor.rs: pop_args_to_args"]}
{"id": "C40", "title": "A call returns to exactly the caller's state", "statement": "After a method, block or native call returns (normally or by exception) the caller's operand stack, locals, self, program counter and frame chain are what they were, plus the single result value.", "quantifier": "every sequence of pushes, calls and returns at any depth", "why_tests_cant": "unbounded depth", "anchors": ["ruruby/src/vm/executor/frame.rs: push_method_frame, push_block_frame, push_native_frame, unwind_frame, clear_stack", "ruruby/src/vm/executor/frame/ruby_stack.rs: RubyStack"]}
{"id": "C41", "title": "Closures share variables with their defining scope", "statement": "A block, proc or lambda and the method that created it see each other's updates to shared local variables, also after the method has returned.", "quantifier": "all interleavings of accesses from frame and closure, before and after the move to the heap", "why_tests_cant": "unbounded histories", "anchors": ["ruruby/src/vm/executor/frame.rs: move_ep_to_heap", "ruruby/src/vm/executor/frame/heap.rs: HeapCtxRef, dup_frame"]}
{"id": "C42", "title": "An exception reaches the innermost matching rescue", "statement": "A raised exception transfers control to the innermost dynamically enclosing begin whose body was executing and whose rescue list matches, with the operand stack reset and the frames in between removed; if none matches it reaches the caller of the program.", "quantifier": "all call chains, exception tables and raise points", "why_tests_cant": "unbounded nesting of frames and handlers", "anchors": ["ruruby/src/vm/executor.rs: run_loop, eval_rescue", "ruruby-common/src/code_context.rs: ExceptionEntry", "ruruby/src/codegen.rs: NodeKind::Begin"]}
{"id": "C43", "title": "ensure clauses always run", "statement": "The ensure clause of a begin block runs exactly once on every way out of the block: normal completion, exception, return, break, next.", "quantifier": "all ways control can leave nested begin blocks", "why_tests_cant": "every exit path at every nesting depth", "anchors": ["ruruby/src/codegen.rs: NodeKind::Begin, NodeKind::Return, NodeKind::Break"]}
{"id": "C44", "title": "Fibers alternate control and deliver values in order", "statement": "resume transfers control to the fiber and returns what the fiber yields, in order; Fiber.yield returns the next resume; resuming a finished fiber raises FiberError; the final value of the body is the result of the last successful resume.", "quantifier": "every interleaving of resume and yield", "why_tests_cant": "histories of unbounded length", "anchors": ["ruruby/src/coroutine.rs: FiberHandle::resume, fiber_yield, FiberState", "ruruby/src/coroutine/stack.rs: new_context, guard"]}
{"id": "C45", "title": "Enumerator#next walks the sequence once", "statement": "Successive next calls return the elements the underlying iteration yields, in order, then raise StopIteration; each/map on the same enumerator do not disturb the position.", "quantifier": "all sequences, all interleavings of next, each, map", "why_tests_cant": "histories of unbounded length", "anchors": ["ruruby/src/vm/executor/fiber.rs: create_enumerator, enumerator_fiber", "ruruby/src/builtin/enumerator.rs: next, each, map"]}
{"id": "C46", "title": "Ranges denote intervals of integers", "statement": "For integer bounds a..b and a...b, to_a, each, map, include?, first(n) and last(n) agree with the interval (half-open when the end is excluded).", "quantifier": "all integer bounds", "why_tests_cant": "off-by-one and empty ranges over an unbounded domain", "anchors": ["ruruby/src/builtin/range.rs: to_a, each, map, include, first, last"]}
{"id": "C47", "title": "String concatenation concatenates bytes", "statement": "s + t, s << t contain the bytes of s followed by the bytes of t whatever internal representation either has, and the result is usable as text exactly when those bytes are valid text.", "quantifier": "all byte strings, all representation combinations", "why_tests_cant": "unbounded strings, nine representation pairs", "anchors": ["ruruby/src/value/string.rs: RString::append, from, from_bytes, as_bytes"]}
{"id": "C48", "title": "String comparison is the lexicographic byte order", "statement": "s <=> t is a total order on strings, consistent with ==, independent of representation.", "quantifier": "all pairs of strings", "why_tests_cant": "unbounded strings", "anchors": ["ruruby/src/value/string.rs: RString::cmp, string_cmp"]}
{"id": "C49", "title": "Operator precedence and associativity", "statement": "Parsing an expression groups operators by the documented precedence and associativity: writing any expression tree out with only the parentheses its grammar needs and parsing it back gives the same tree.", "quantifier": "all expression trees", "why_tests_cant": "unbounded nesting and operator combinations", "anchors": ["ruruby-parse/src/parser/expression.rs: parse_arg_ternary .. parse_exponent, parse_unary"]}
{"id": "C50", "title": "Numeric literals denote their value", "statement": "A decimal, hexadecimal or binary integer literal of any length, with underscores, evaluates to the number it spells.", "quantifier": "all digit strings", "why_tests_cant": "unbounded digit strings", "anchors": ["ruruby-parse/src/parser/lexer.rs: read_number_literal, read_hex_number, read_bin_number"]}
{"id": "C51", "title": "Source locations point at the right line", "statement": "The line number and text reported for a source position are those of the line containing it.", "quantifier": "all source texts and positions", "why_tests_cant": "unbounded texts", "anchors": ["ruruby-common/src/source_info.rs: SourceInfo::get_lines, get_line"]}
{"id": "C52", "title": "require loads a file at most once", "statement": "However often and from wherever a file is required, its body runs at most once; the second require returns false.", "quantifier": "every history of require calls", "why_tests_cant": "histories of unbounded length, mutual requires", "anchors": ["ruruby/src/vm/executor/loader.rs: require, load_exec", "ruruby/src/globals.rs: add_source_file"]}
{"id": "C53", "title": "Comparable derives a consistent order", "statement": "The operators mixed in by Comparable agree with <=>: exactly one of <, ==, > holds whenever <=> returns an integer, and <=, >= are their unions.", "quantifier": "all <=> results", "why_tests_cant": "every user defined <=>", "anchors": ["ruruby/src/builtin/comparable.rs"]}
{"id": "C54", "title": "Block handles survive being stored in a frame", "statement": "A block (code id plus defining frame), symbol-to-proc or proc stored in a frame slot is read back as the same block.", "quantifier": "all code ids and frame offsets", "why_tests_cant": "2^64 combinations packed in one word", "anchors": ["ruruby/src/vm/args.rs: Block::encode, Block::decode"]}
{"id": "C55", "title": "Frame flags are independent", "statement": "The argument count, module-function flag, discard flag and other frame flags packed in one word are each read back as written.", "quantifier": "all argument counts and flag combinations", "why_tests_cant": "packed word", "anchors": ["ruruby/src/vm/executor/frame.rs: ruby_flag, native_flag, flag accessors"]}
{"id": "C56", "title": "is_a? agrees with ancestors", "statement": "x.is_a?(M) holds exactly when M is in the ancestor list of the class of x. C.superclass is the class C was derived from, whatever modules were mixed in since; x.class is never a singleton class, and x.instance_of?(K) holds for K = x.class only.", "quantifier": "all hierarchies", "why_tests_cant": "arbitrary hierarchies", "anchors": ["ruruby/src/globals.rs: kind_of", "ruruby/src/value/class.rs: ancestors, superclass", "ruruby/src/builtin/object.rs: instance_of"]}
{"id": "C57", "title": "Instance variables are independent per object and name", "statement": "Writing one instance variable of one object changes what is read for that object and name only; attr_reader and attr_writer access the same variables.", "quantifier": "every history of reads and writes over any objects and names", "why_tests_cant": "histories of unbounded length", "anchors": ["ruruby/src/value/rvalue.rs: get_var, set_var", "ruruby/src/vm/executor/method.rs: exec_getter, exec_setter"]}
{"id": "C58", "title": "Multiple assignment distributes values by position", "statement": "a, *b, c = v assigns leading, middle and trailing elements to the targets as documented, filling with nil, and evaluates every right-hand side before assigning any target.", "quantifier": "all target lists and value lists", "why_tests_cant": "combinatorial in positions and lengths", "anchors": ["ruruby/src/codegen.rs: NodeKind::MulAssign", "ruruby/src/vm/executor/opt_core.rs: TAKE"]}
{"id": "C59", "title": "Array literals are fresh on every evaluation", "statement": "Each evaluation of an array literal yields a new array equal to what is written, whatever happened to arrays from earlier evaluations.", "quantifier": "all literals, all mutations of earlier results", "why_tests_cant": "histories of mutations; nesting", "anchors": ["ruruby/src/codegen.rs: const_array", "ruruby/src/globals.rs: ConstantValues::get", "ruruby/src/value/rvalue.rs: shallow_dup"]}
{"id": "C60", "title": "join and split are inverse on clean data", "statement": "Joining strings that do not contain the separator and splitting the result at the separator gives the strings back (up to the documented dropping of trailing empties).", "quantifier": "all string lists, all non-empty separators", "why_tests_cant": "unbounded lists and strings", "anchors": ["ruruby/src/builtin/array.rs: join", "ruruby/src/builtin/string.rs: split"]}
{"id": "C61", "title": "Stack-shuffling instructions permute as specified", "statement": "DUP, SINKN, TOPN, TAKE move exactly the operands they document and leave the rest of the operand stack unchanged.", "quantifier": "all stacks and operand counts", "why_tests_cant": "unbounded stacks", "anchors": ["ruruby/src/vm/executor/opt_core.rs: DUP, SINKN, TOPN, TAKE", "ruruby/src/vm/executor/frame/ruby_stack.rs"]}
{"id": "C62", "title": "Array iteration calls the block once per element, in order", "statement": "each, map, select, reject, partition and inject call their block exactly once for each element from first to last and combine the answers in that order; find and find_index stop at the first element for which the block is true; an exception raised by the block stops the iteration at once.", "quantifier": "every array, every block (with any state and any exceptions) that does not modify the array", "why_tests_cant": "the block is arbitrary stateful code and may raise at any element", "anchors": ["ruruby/src/builtin/array.rs: each, map, select, reject, partition, inject, find, find_index"]}
{"id": "C63", "title": "slice!, * and - of arrays", "statement": "slice!(start, len) returns the window and removes exactly it; a * n is n copies of a in a row; a - b keeps, in order and with repetitions, exactly the elements of a equal to none of b.", "quantifier": "every array, every start, length, count and right-hand array", "why_tests_cant": "unbounded arrays and all positions", "anchors": ["ruruby/src/builtin/array.rs: slice_, mul, sub"]}
{"id": "C64", "title": "Hashes made from hashes", "statement": "merge answers with the argument's value where it has the key and the receiver's otherwise; select and reject run the block once per entry in order and keep exactly the chosen entries in order; compact drops exactly the nil values; invert maps each value to the last key that holds it; compare_by_identity keeps every entry.", "quantifier": "every hash, every block including stateful and raising ones", "why_tests_cant": "arbitrary blocks and hashes of any size", "anchors": ["ruruby/src/builtin/hash.rs: merge, select, reject, compact, invert, compare_by_identity"]}
{"id": "C65", "title": "Which programs the compiler rejects", "statement": "The compiler accepts a parsed body exactly when every local variable it mentions is in scope and every break and next stands in a loop (or the body is a block); on every other body it reports an error, and it never fails otherwise. The code and the tables it makes are at most proportional to the size of the body.", "quantifier": "all bodies (trees), all contexts, all states of the shared tables with room for the body", "why_tests_cant": "unbounded nesting of expressions, loops and rescues; internal errors of the compiler would be a crash on some tree nobody tried", "anchors": ["ruruby/src/codegen.rs: gen_iseq, gen, gen_break, gen_next, save_lvar, loop_stack"]}
{"id": "C66", "title": "super calls the next definition in the ancestor list", "statement": "Inside a method found at some class or module of the receiver's ancestor list, super calls the first definition of the same name further along that list, and raises NoMethodError if there is none.", "quantifier": "every class hierarchy built by any sequence of class and module definitions, includes, prepends and method definitions, every receiver and every method name", "why_tests_cant": "The number of hierarchies and the position of the running method in them are unbounded; tests only see a few shapes.", "anchors": ["ruruby/src/vm/executor/opt_core.rs: vm_super", "ruruby/src/value/class.rs: Module::superclass, search_method"]}
{"id": "C67", "title": "Class variables are shared along the class hierarchy", "statement": "Reading @@x gives the value held by the nearest class above that has it (NameError if none); writing changes it there, or creates it in the class itself, and changes nothing else.", "quantifier": "all hierarchies, names, values and earlier writes", "why_tests_cant": "unbounded hierarchies and histories", "anchors": ["ruruby/src/vm/executor.rs: set_class_var, get_class_var", "ruruby/src/value/value.rs: set_var_if_exists"]}
{"id": "C68", "title": "Characters of a string by position", "statement": "s[i] and s[i, n] and s[i..j] give exactly the characters at those positions counted from the front, or from the back for negative numbers, and nil outside; s[i]= t replaces exactly the character at that position; slice! removes exactly what it returns.", "quantifier": "every string, position, length and replacement", "why_tests_cant": "positions and strings are unbounded; boundaries depend on both", "anchors": ["ruruby/src/builtin/string.rs: index, index_assign, slice_"]}
{"id": "C69", "title": "Padding a string", "statement": "ljust, rjust and center return the string itself if it is already wide enough, otherwise exactly the wanted width with the string unchanged inside and only padding around it; empty padding is an error.", "quantifier": "every string, width and padding", "why_tests_cant": "widths and paddings are unbounded and the padding may not divide the gap", "anchors": ["ruruby/src/builtin/string.rs: gen_pad_str, ljust, rjust, center"]}
{"id": "C70", "title": "succ counts", "statement": "succ of a string of decimal digits is the next number, with one more digit only if all were nines; succ of a string of letters of one case is the next string in the list a, b, …, z, aa, ab, ….", "quantifier": "every non-empty string of digits or of letters of one case", "why_tests_cant": "carries run through any number of characters", "anchors": ["ruruby/src/builtin/string.rs: succ, str_next, succ_char"]}
{"id": "C71", "title": "lines keeps the text", "statement": "The lines of a string put together again are the string; no line is empty and a newline occurs only at the end of a line.", "quantifier": "every string", "why_tests_cant": "strings and the places of newlines are unbounded", "anchors": ["ruruby/src/builtin/string.rs: lines"]}
{"id": "C72", "title": "strip removes the white space around the text and nothing else", "statement": "strip, lstrip and rstrip return a piece of the string: what is cut off is white space only (or NUL at the end) and what remains does not begin or end with such characters.", "quantifier": "every string", "why_tests_cant": "strings are unbounded", "anchors": ["ruruby/src/builtin/string.rs: strip, lstrip, rstrip"]}
{"id": "C73", "title": "The text of a token is read as that token", "statement": "Every identifier, constant, keyword, variable, operator and number written in a program is read as exactly that token, the longest operator wins, white space and comments separate tokens without adding any, and so a program written out token by token is read back as the same tokens.", "quantifier": "all tokens, all token sequences, all following text", "why_tests_cant": "unbounded names, numbers and sequences", "anchors": ["ruruby-parse/src/parser/lexer.rs: read_token, read_identifier, read_global_var, skip_whitespace, goto_eol"]}
{"id": "C74", "title": "String literals denote their characters", "statement": "A single- or double-quoted string literal denotes the characters it spells, escapes and line continuations included; an interpolation starts exactly at #{, #$ or #@; a literal without its closing quote is an error.", "quantifier": "all strings and all ways of writing them", "why_tests_cant": "unbounded strings over all characters", "anchors": ["ruruby-parse/src/parser/lexer.rs: read_string_literal_double, read_string_literal_single, read_interpolate, read_escaped_char"]}
{"id": "C75", "title": "inspect of a string is a literal for it", "statement": "The text that String#inspect returns, read as a program, is a string literal that denotes the same string.", "quantifier": "all strings", "why_tests_cant": "unbounded strings over all characters", "anchors": ["ruruby/src/value/string.rs: Debug for RString, inspect", "ruruby-parse/src/parser/lexer.rs: read_string_literal_double"]}
{"id": "C76", "title": "A text of the language does what it says", "statement": "Reading, compiling and running a text of the (covered) language ends as the evaluation of the tree that the text stands for ends: same value or exception, same variables, objects and output.", "quantifier": "all texts of the grammar, all worlds (meanings of methods, objects), all start states", "why_tests_cant": "an infinite language, composed of three programs (parser, compiler, interpreter) that must agree about every construct in every position", "anchors": ["ruruby-parse/src/parser/expression.rs: parse_comp_stmt, parse_stmt, parse_expr, parse_arg", "ruruby/src/codegen.rs: gen_iseq, gen", "ruruby/src/vm/executor.rs: run, run_context"]}
{"id": "C77", "title": "Integer programs compute what they say", "statement": "A program text over integers, booleans and nil (local variables, arithmetic, comparisons, logic, conditionals, loops with break and next, single, operator and multiple assignment, return) is read, compiled and optimized, and running the result returns the value that the program has over mathematical integers with named variables, or raises ZeroDivisionError exactly where that evaluation divides by zero; every variable ends with its right value. For example Euclid's algorithm returns the greatest common divisor of any two numbers, however large.", "quantifier": "every text of the grammar whose tree is such a program, every numbering of its names, every content of the tables before compilation, every number of loop rounds, every integer", "why_tests_cant": "Programs, integers and loop counts are unbounded; the claim goes through lexer, parser, compiler, optimizer, interpreter and arithmetic at once.", "anchors": ["ruruby-parse/src/parser.rs", "ruruby/src/codegen.rs: Codegen::gen", "ruruby/src/vm/iseq.rs: optimize", "ruruby/src/vm/opt_core.rs: run_context_main", "ruruby/src/vm/ops.rs"]}
{"id": "C78", "title": "The code that runs is well-formed and optimized without harm", "statement": "For every program the compiler accepts, each jump, case label and rescue entry of the code leads to an instruction; compilation (with its last pass, which shortens jumps) completes; and running the final code ends exactly as running the code before that pass, hence as the evaluation of the source.", "quantifier": "all bodies, all contents of the shared tables, all start states and meanings of methods", "why_tests_cant": "unbounded nesting of loops, conditionals, case and rescue, each of which patches jumps of the others", "anchors": ["ruruby/src/codegen.rs: gen_iseq, gen", "ruruby/src/vm/iseq.rs: optimize, chase, write_disp"]}
{"id": "C79", "title": "sub, gsub, scan and match act on the matches from left to right", "statement": "s.gsub(pattern, text) and s.gsub(pattern) { … } replace every non-overlapping match, from left to right, and leave the rest of the text as it is; sub does it for the first match and expands \\0…\\9; scan lists the matches in order and always ends; =~ gives the position of the first match, match the texts of its groups; $&, $' and $1… are those of the last match used.", "quantifier": "every text, every pattern (a matcher that finds leftmost matches), every replacement, every block with any effects and exceptions", "why_tests_cant": "texts, patterns and blocks are unbounded; empty matches and matches at the end of the text make the loops stop early or never", "anchors": ["ruruby/src/builtin/regexp.rs: replace_repeat, replace_once, replace_all_block, replace_one_block, find_all, find_one, match_one", "ruruby/src/builtin/string.rs: sub, gsub, scan, rmatch, str_match", "ruruby/src/vm/executor.rs: get_captures"]}
{"id": "C80", "title": "Complex numbers with integer parts form the Gaussian integers", "statement": "+, -, * and == on complex numbers with integer parts of any size are those of the Gaussian integers, also with an integer on either side; abs2 is the norm; a product divided by a nonzero factor gives the other factor; rect gives back the parts.", "quantifier": "all complex numbers with integer parts (unbounded), all integers as other operand", "why_tests_cant": "the domain is infinite, and the parts change representation between 64-bit and big integers", "anchors": ["ruruby/src/builtin/complex.rs: add, sub, mul, div, eq, abs2, rect", "ruruby/src/builtin/numeric.rs: add, sub, mul", "ruruby/src/value/value.rs: to_complex", "ruruby/src/vm/executor/ops.rs: eval_eq2"]}
{"id": "C81", "title": "== on data is equality of what the data says", "statement": "For data made of nil, true, false, integers of any size, symbols, strings, arrays and ranges, a == b is true exactly if both say the same, whatever objects and representations hold them; it ends, raises nothing and changes nothing. != is the contrary; == with a literal, === and case/when agree with it; include? and count use it; it is an equivalence. An object's own == is called for every other operand, and its exceptions are not lost.", "quantifier": "all data (unbounded size and depth, shared or not), all heaps, all programs that have not redefined == of builtin classes", "why_tests_cant": "data is nested without bound and each kind of value has several representations; == with a literal, case/when and include? take different code paths that must agree", "anchors": ["ruruby/src/vm/executor/ops.rs: eval_eq2, eval_eq, eval_ne, eval_eqi, eval_nei, invoke_teq, eval_teq", "ruruby/src/builtin/array.rs: include, count", "ruruby/src/builtin/object.rs: equal"]}
{"id": "C82", "title": "Programs whose methods call each other and themselves do what they say", "statement": "A program defines methods with required parameters and then runs statements. A call of such a method runs its body with the parameters bound to the arguments, all its other local variables nil and self the receiver; it returns the value of the body or of return, or raises what the body raises; the caller's variables are unchanged; a wrong number of arguments raises and runs nothing. Running the compiled and optimized code of methods and program comes to what this reading of the program comes to, however deep the calls.", "quantifier": "all lists of methods (mutually recursive or not), all bodies of the supported syntax, all arguments, objects and depths of calls", "why_tests_cant": "recursion is unbounded, and each call depends on the compiler, the last pass and the frame of the callee at once", "anchors": ["ruruby-parse/src/parser/define.rs: parse_def", "ruruby/src/codegen.rs: gen_iseq, Def", "ruruby/src/vm/executor/opt_core.rs: DEF_METHOD, vm_send", "ruruby/src/vm/executor/method.rs: invoke_method", "ruruby/src/vm/executor/frame/arg_handler.rs: push_method_frame_fast"]}
{"id": "C83", "title": "Blocks: yield runs the block with its own variables and those of the place where it was written", "statement": "A call can give a block to a method. Each yield in the method runs the block with new variables for its parameters (missing arguments nil, surplus arguments dropped, a single array argument spread over two or more parameters), with the variables, self and block of the place where it was written, so that assignments to variables of that place are seen there afterwards; its value (also of next) is the value of the yield, and an exception in it propagates through the method to the caller. yield without a block raises. A call without a block does not change variables of the caller. break ends the call to which the block was given; return ends the method in which the block was written. Running the compiled and optimized code, frame by frame, comes to what this reading of the program comes to, however deep methods and blocks are nested.", "quantifier": "all programs of methods and blocks of the supported syntax, all arguments, objects, variables and depths of nesting, recursion included", "why_tests_cant": "nesting and recursion of methods and blocks are unbounded, and each run of a block depends on the frames of all calls that are going on", "anchors": ["ruruby/src/codegen.rs: get_block", "ruruby/src/codegen/send.rs", "ruruby/src/vm/executor/opt_core.rs: vm_fast_send, vm_yield, RETURN, BREAK, MRETURN", "ruruby/src/vm/executor/method.rs: invoke_block, invoke_method", "ruruby/src/vm/executor/frame/arg_handler.rs: push_block_frame_fast, prepare_block_args", "ruruby/src/vm/executor.rs: run_loop"]}
{"id": "C84", "title": "What a program is told about methods and modules is what calls do", "statement": "C.instance_methods lists exactly the names m for which C.method_defined?(m) holds and for which a call on an instance of C finds a method; with false, exactly the names that C itself defines. x.methods, x.respond_to? and x.method(m) agree with calls on x in the same way, and the owner of x.method(m) is the class or module that defines it. A <=> B is 0, 1, -1 or nil as A is B, an ancestor of B, a descendant of B or neither, and turns around with its operands. C.include?(M) and C.included_modules tell the modules among the ancestors of C. Asking changes nothing.", "quantifier": "all histories of class and module definitions, method definitions, include, prepend, extend and singleton classes, all classes, objects and names", "why_tests_cant": "each question walks the whole class graph, and the graphs that programs can build are unbounded", "anchors": ["ruruby/src/builtin/module.rs: instance_methods, method_defined, cmp, include_, included_modules", "ruruby/src/builtin/object.rs: methods, method, respond_to, singleton_methods", "ruruby/src/builtin/method.rs: owner", "ruruby/src/value/class.rs: search_method, include_module"]}
{"id": "C85", "title": "An alias keeps the definition it was made from", "statement": "After alias new old (or alias_method), a call of new on an instance runs the definition that a call of old ran at that moment, whatever is defined, included or prepended afterwards, until new is defined again; subclasses inherit it. If old was not found the alias fails and nothing changes. module_function :m makes the definition that m then has callable on the module itself.", "quantifier": "all histories before and after the alias, all classes, modules and names", "why_tests_cant": "later redefinitions and inclusions are unbounded, and each could affect the lookup of the alias", "anchors": ["ruruby/src/builtin/module.rs: module_alias_method, module_function", "ruruby/src/builtin/basicobject.rs: alias_method", "ruruby/src/value/class.rs: get_method_or_nomethod, add_method"]}
{"id": "C86", "title": "Iterating over an array that the block changes", "statement": "While an array is iterated with a block, the block may do anything to the array. Each step gives the block the element that is at the next index at that moment; the iteration ends when the array has no element at that index, when the block raises, or, for find, any? and all?, with the first deciding answer. Elements added meanwhile are visited and removed ones are not; the interpreter never panics and never reads memory that is not the array's.", "quantifier": "all arrays, all blocks with any effect on the state and the array, all states", "why_tests_cant": "a block can grow, shrink or replace the array at any step; whether memory is read that is not the array's depends on capacities and need not show", "anchors": ["ruruby/src/builtin/array.rs: each, map, map_, select, reject, partition, find, any_, all_, inject, binary_search", "ruruby/src/value/array.rs: ArrayInfo"]}
{"id": "C87", "title": "Numbers and characters as text", "statement": "Integer#to_s writes a sign for negative numbers and decimal digits without leading zeros that denote the number, so different integers are written differently. Reading the text back with to_i, Integer() or as a literal in a program gives the number. chr gives the string of one byte and raises outside 0..255; bytes and pack are inverse to each other.", "quantifier": "all integers of any size, all lists of integers, all strings", "why_tests_cant": "the claim is about every integer; the violations begin at 2^63 and at byte 128, which examples with small numbers do not reach", "anchors": ["ruruby/src/builtin/integer.rs: to_s, chr", "ruruby/src/builtin/string.rs: to_i, bytes, ord", "ruruby/src/builtin/kernel.rs: integer", "ruruby/src/value/string.rs: RString::parse", "ruruby/src/builtin/array.rs: pack", "ruruby-parse/src/lexer.rs: read_number_literal"]}
{"id": "C88", "title": "String#% writes each argument where its directive stands", "statement": "format % args is the format with each %% replaced by a percent sign and each directive replaced by its argument: %d, %x and %b by the number in that base, %s by the text, %c by the character, %f by the float with the decimals asked for, padded on the left to the width with spaces or zeros. Other characters stay as they are. With fewer arguments than directives an ArgumentError is raised.", "quantifier": "all formats (any number of characters and directives, any width and precision) and all lists of arguments of fitting kinds", "why_tests_cant": "formats and arguments are unbounded; that the scanner neither loses nor doubles a character or an argument has to hold for every sequence of pieces", "anchors": ["ruruby/src/builtin/string.rs: rem"]}
{"id": "C89", "title": "Strings taken apart, searched and trimmed", "statement": "chars gives the characters in order; joined they are the string, size is their number, codepoints are their numbers and determine the string; each_char visits them in order. start_with?, end_with? and include? hold exactly if the text is at the start, at the end, somewhere. empty? and sum speak of the bytes. count gives how many characters are in the set, tr replaces characters by characters, chomp removes one line end.", "quantifier": "all strings, patterns and blocks", "why_tests_cant": "searches and replacements depend on how the pattern overlaps the string, which has unboundedly many shapes", "anchors": ["ruruby/src/builtin/string.rs: chars, size, codepoints, each_char, start_with, end_with, include_, empty, sum, count, tr, chomp"]}
{"id": "C90", "title": "Class variables are shared along inheritance", "statement": "A class variable that a class assigns first belongs to that class and everything below it: whatever the program does afterwards, the class, its subclasses and their instances all read the value that one of them assigned last. What was assigned is read again; other variables are not touched; a variable that nobody assigned raises a NameError, and any use at the top level a RuntimeError. class_variables lists the variables that a class has.", "quantifier": "all programs that make classes and modules, include modules and assign class variables, in any order and number", "why_tests_cant": "who owns a variable depends on the whole history of definitions, inclusions and assignments", "anchors": ["ruruby/src/vm/executor.rs: set_class_var, get_class_var", "ruruby/src/globals.rs: get_class_if_object", "ruruby/src/value/class.rs: append_include, generate_included, set_var_if_exists", "ruruby/src/value/rvalue.rs: shallow_dup", "ruruby/src/builtin/module.rs: class_variables"]}
{"id": "C91", "title": "Iterating over a hash, and keys that change", "statement": "each, each_key, each_value, select, reject and has_value? give the block the entries in insertion order, each with the value it has when its turn comes, up to an exception; the block may assign to keys that are there, which keeps their places. A key stays findable under the value it was inserted with.", "quantifier": "all hashes, all blocks with any effect on the state and the hash", "why_tests_cant": "a block can change the hash at any step; whether freed memory is read depends on capacities and need not show", "anchors": ["ruruby/src/builtin/hash.rs: each, each_key, each_value, select, reject, has_value", "ruruby/src/value/hash.rs: HashInfo", "ruruby/src/vm/executor/ops.rs: set_index"]}
{"id": "C92", "title": "Paths", "statement": "File.expand_path(path, dir) is the canonical absolute text of what the path names, seen from what dir names, seen from the working directory: it begins with a slash and has no '.', '..' or empty parts; a canonical path is left as it is; '~' at the start is the home directory. File.basename is the last name of the path, File.dirname names the directory it is in, and joining the two names the same file. File.extname is the end of the base name from its last dot. File.join has the names of its arguments in order, with one slash between two arguments.", "quantifier": "all texts, working directories, home directories, nested arrays of arguments", "why_tests_cant": "any number of '.', '..' and slashes can stand anywhere in a path", "anchors": ["ruruby/src/builtin/file.rs: string_to_path, expand_path, basename, extname, dirname, join", "ruruby/src/builtin.rs: conv_pathbuf"]}
{"id": "C93", "title": "Dir.glob finds the files that match", "statement": "Dir.glob(pattern) gives exactly the paths that exist below the working directory (or the root, for a pattern that begins with a slash) and match the pattern: '?' is any character, '*' any text within a name, '**/' any number of directories that are not hidden; a hidden name is matched only if its dot is written.", "quantifier": "all directory trees, all patterns", "why_tests_cant": "trees of any depth and patterns of any length; a missing file in the result does not show", "anchors": ["ruruby/src/builtin/dir.rs: glob, traverse_dir"]}
{"id": "C94", "title": "All ways to call a method are the same call", "statement": "x.m(args) runs the method found for m with exactly this receiver, these arguments in order, this block and these keywords. x.send(:m, args), x.method(:m).call(args), x.method(:m).unbind.bind(x).call(args), bind_call(x, args) and the block &:m called with x and args have the same outcome; a Method object keeps the method it was made from when classes change later. respond_to? is true exactly for the methods that are found. A call of a method that is not found runs method_missing with the name, then the arguments, the block and the keywords; without a method_missing of the program it raises NoMethodError. Chains of such calls come to an end.", "quantifier": "all class hierarchies (as the function from receivers and names to methods), receivers, names, argument lists, blocks, keywords, contents of the stack below, nested send/call/bind_call chains", "why_tests_cant": "arguments are passed on by copying stretches of the stack at computed offsets; any number of arguments and any chain of sends can occur", "anchors": ["ruruby/src/builtin/object.rs: send, method, respond_to", "ruruby/src/builtin/method.rs: call, unbind", "ruruby/src/builtin/unbound_method.rs: bind, bind_call", "ruruby/src/builtin/basicobject.rs: method_missing", "ruruby/src/vm/executor/method.rs: invoke_method, invoke_method_missing, invoke_send, invoke_sym_proc, eval_method_range, exec_native", "ruruby/src/codegen.rs: gen_sym_to_proc_iseq"]}
{"id": "C95", "title": "inspect tells data apart", "statement": "Two data made of arrays, hashes, ranges, integers, strings, symbols, nil, true and false, nested to any depth, have the same inspect only if they are the same: no characters in strings or symbols can make one look like another. An array that contains itself is shown with [...] at that place.", "quantifier": "all data of any size and depth, all strings and symbols; all arrays in the heap that contain themselves, directly or not", "why_tests_cant": "the texts of the parts are put together without any marks of their length; whether some text can be read in two ways is a question about all pairs of data", "anchors": ["ruruby/src/vm/executor.rs: val_inspect", "ruruby/src/builtin/array.rs: inspect", "ruruby/src/value/hash.rs: to_s", "ruruby/src/builtin/range.rs: RangeInfo::inspect", "ruruby/src/value/string.rs: inspect"]}
{"id": "C96", "title": "A method of one object belongs to that object", "statement": "After def x.m a call x.m runs the new method, calls on every other object do exactly what they did before, and no call on another object ever runs a method defined on x. A copy made with dup answers calls as the original does and shares no methods with it afterwards.", "quantifier": "all programs that make classes, modules, objects and singleton classes, include, prepend and define methods, in any order and number; all objects x (ordinary objects and modules), all other objects, classes and modules, all method names", "why_tests_cant": "the search goes through links that include, prepend and earlier definitions have rearranged; that none of the links leads into another object's own class is an invariant over all histories", "anchors": ["ruruby/src/value/value.rs: Value::get_singleton_class", "ruruby/src/vm/executor.rs: VM::define_singleton_method", "ruruby/src/vm/executor/opt_core.rs: Inst::DEF_SMETHOD", "ruruby/src/value/rvalue.rs: RValue::shallow_dup", "ruruby/src/value/class.rs: Module::search_method"]}
{"id": "C97", "title": "Percent literals and here documents mean their text", "statement": "%q and %Q (or a bare %) with any delimiter give the text up to the delimiter that closes the literal, with nested pairs of delimiters and with the escapes of single and double quotes; %w and %i give the words of the text as strings and symbols. A here document is the lines between the line that opens it and its closing line; several documents opened in one line follow each other, the rest of the line is read next, and the program goes on behind the last closing line. Without a closing line it is an error.", "quantifier": "all delimiters, all texts and nestings, all numbers of words; all identifiers, quotes and indentations, all numbers of lines and of documents in a line, whatever follows", "why_tests_cant": "where a literal ends depends on all of its text, and the positions of documents depend on all earlier documents of the line", "anchors": ["ruruby-parse/src/parser/lexer.rs: Lexer::get_percent_notation", "ruruby-parse/src/parser/lexer.rs: Lexer::read_heredocument", "ruruby-parse/src/parser/lexer.rs: Lexer::consume_newline", "ruruby-parse/src/parser/literals.rs: Parser::parse_percent_notation", "ruruby-parse/src/parser/literals.rs: Parser::parse_heredocument"]}
{"id": "C98", "title": "An exception goes to the first rescue clause for its class", "statement": "An exception goes to the innermost begin that has a rescue clause listing an ancestor of its class (StandardError when the list is empty; the elements of a splatted array count), and there to the first such clause, which gets the very object that was raised. raise C makes a new object of the exception class C, named after it; raise of an exception object raises that object; raise of anything that is no exception is a TypeError. The errors of the interpreter are objects of the classes of the same names, which stand below each other as in Ruby.", "quantifier": "all class hierarchies that programs can build, all exception objects and classes, all nestings of begin, all numbers of clauses and lists, all kinds of errors", "why_tests_cant": "the choice depends on the whole ancestor list of the class and on all clauses around the point of the error", "anchors": ["ruruby/src/vm/executor.rs: VM::eval_rescue", "ruruby/src/builtin/kernel.rs: raise", "ruruby/src/globals.rs: Globals::from_exception", "ruruby/src/value/value.rs: Value::is_exception_class", "ruruby/src/codegen.rs: NodeKind::Begin", "ruruby/src/builtin/exception.rs: init, exception_new"]}
{"id": "C99", "title": "class and module statements open what is there, and names are paths", "statement": "The first `class A` (or `module A`) in a class or module makes a new class (or module) of the given superclass, Object without one, binds it to the constant A of that class or module and changes no other constant, class or name. Every later `class A` there opens the same class, whatever happened in between, as long as no assignment gave A another value; a different superclass or the other keyword is a TypeError and changes nothing. A class or module is named after the first constant it is bound to and keeps that name. As long as no constant is given a second value, its name A::B::C read as a path finds it, so different classes have different names.", "quantifier": "all histories of programs that build classes and modules, include, prepend, define methods, make singleton classes, set constants and open classes; all constants", "why_tests_cant": "what a class statement opens and what a name means depend on the whole history of the program", "anchors": ["ruruby/src/vm/executor.rs: VM::define_class", "ruruby/src/value/class.rs: ClassInfo::set_const, get_const_noautoload, op_name", "ruruby/src/globals/constants.rs: Globals::set_const", "ruruby/src/vm/executor/opt_core.rs: DEF_CLASS, SET_CONST", "ruruby/src/builtin/module.rs: name"]}
{"id": "C100", "title": "questions to arrays ask the elements in order and answer about all of them", "statement": "For every array and every `===`, `==`, `>` or block, which may keep state and raise: `grep(pat)` asks each element once from left to right and returns those that match; `any?` and `all?` ask until the answer is known and not further, and an exception ends them; `count(x)` is the number of equal elements; `find_index(x)` is the first index of an equal element or nil; `delete(x)` removes exactly the equal elements, keeps the order of the rest and returns the last removed or nil; `max` and `min` return the first of the greatest and least elements, nil only for []; `fill` keeps the length; `each_with_index` and `each_index` pass 0, 1, 2, … with the element that is there at that time; `flat_map` calls the block once per element with what `each` would bind and splices arrays; `uniq!` with a block keeps the elements whose answer has not occurred before and is nil exactly if none was removed.", "quantifier": "all arrays, all comparison methods and blocks with any state and any exceptions", "why_tests_cant": "arrays, comparisons and blocks range over infinite sets; a block can raise at every element and change the array", "anchors": ["ruruby/src/builtin/array.rs: grep, any_, all_, count, find_index, delete, max, min, fill, each_with_index, each_index, flat_map, uniq_"]}
{"id": "C101", "title": "a call evaluates its parts once in order and passes exactly them", "statement": "For every call `recv.m(a, *b, k: c, **h, &blk)`: the receiver, arguments, keyword values, `**` values and the block argument are evaluated once each in the order of the text, and then the method is called once with that receiver, with the arguments with every `*` expanded, with the keywords of the text overridden by those of the `**` values, and with the block; nothing else is left on the stack. If one of the expressions raises, the rest is not evaluated and the method is not called. `recv&.m(…)` is nil for nil without evaluating arguments or calling, and the ordinary call otherwise. `super(…)` passes its arguments, keywords and block, and `super` alone those of the running method.", "quantifier": "all calls with any number of arguments of each kind, all expressions with any effects and exceptions, all states and stacks", "why_tests_cant": "the combinations of argument kinds, effects, exceptions and values are unbounded", "anchors": ["ruruby/src/codegen/send.rs: gen_send", "ruruby/src/codegen.rs: get_block, NodeKind::Super, emit_super", "ruruby/src/vm/executor/opt_core.rs: vm_send, vm_fast_send, handle_hash_args, handle_block_arg, vm_super"]}
{"id": "C102", "title": "constants, const_get and const_defined? agree with the ancestors", "statement": "For every class and module, after any history of class definitions, includes, prepends and constant definitions: `constants` lists each name that some ancestor before Object defines (any ancestor for Object itself) once and no other; `constants(false)` lists exactly what the class defines itself; `const_get(name)` is the constant of the first ancestor that has it, for a module also of Object and its ancestors, and raises NameError otherwise; `const_defined?` is true exactly if `const_get` succeeds, and with false exactly if the class has it itself; what is listed can be got.", "quantifier": "all histories of class, module, include, prepend and constant definitions, all classes and modules, all names", "why_tests_cant": "the class graph and its history are unbounded", "anchors": ["ruruby/src/builtin/module.rs: constants, const_get, const_defined", "ruruby/src/vm/executor/constants.rs: get_super_const", "ruruby/src/value/class.rs: upper"]}
{"id": "C103", "title": "binary search finds the first element the block accepts", "statement": "For every array and every block whose answers are false or nil up to some place and true from there on, `bsearch` is the first element for which the block is true and `bsearch_index` its index, and nil if there is none. For every block whatever, a result other than nil is an element for which the block answered true or 0. The block is called at most ceil(log2 n) + 2 times and the search ends.", "quantifier": "all arrays of any length, all blocks including those that are not monotone, answer with numbers, raise or change the array", "why_tests_cant": "array lengths and blocks are unbounded", "anchors": ["ruruby/src/builtin/array.rs: binary_search, bsearch, bsearch_index", "ruruby/src/value/value.rs: expect_bool_nil_num"]}
{"id": "C104", "title": "structs keep their members", "statement": "`Struct.new` makes a class exactly if its arguments are symbols, possibly after a string with a capital first letter. An object of this class has the given values as its members in order and nil for the rest; too many values raise ArgumentError; creating one changes no other object; writing a member changes this member of this object alone; inspect shows every member in order with its value.", "quantifier": "all argument lists, all numbers of members, all values, all heaps of objects", "why_tests_cant": "numbers of members and objects are unbounded", "anchors": ["ruruby/src/builtin/structobj.rs: struct_new, initialize, inspect", "ruruby/src/builtin/module.rs: set_attr_accessor"]}
{"id": "C105", "title": "floats and integers compare as numbers", "statement": "`<=>` of two floats is the order of the numbers they stand for, nil if one is not-a-number; `<`, `<=`, `>`, `>=` and `==` say what `<=>` says, with a literal as with a variable; turning the operands round turns the answer round; an integer and a float compare as the exact numbers: 'less' and 'greater' are right for every integer, 'equal' for integers of at most 53 bits.", "quantifier": "all 2^64 bit patterns of floats, all packed integers", "why_tests_cant": "2^64 floats by 2^63 integers; the failures lie at a few of them", "anchors": ["ruruby/src/arith.rs: cmp_fixnum, cmp_float", "ruruby/src/vm/executor/ops.rs: eval_cmp2, eval_cmp_i, eval_eq2, eval_eqi, invoke_compare"]}
{"id": "C106", "title": "floats become integers and integers floats", "statement": "`floor` is the largest integer not above the float; `to_i` and `Integer(f)` drop the fraction towards zero; `to_f` of an integer is a float nearest to it and itself up to 2^53, so that such an integer survives the way to a float and back; `abs`, `nan?` and `infinite?` say what they say.", "quantifier": "all 2^64 bit patterns, all i64", "why_tests_cant": "2^64 floats and 2^64 integers", "anchors": ["ruruby/src/builtin/float.rs: floor, toi, abs, nan, infinite", "ruruby/src/builtin/integer.rs: tof", "ruruby/src/builtin/kernel.rs: kernel_integer"]}
{"id": "C107", "title": "% of floats is the remainder of the floored quotient", "statement": "For floats x and y, y not zero, `x % y` is x - y * (x / y).floor: it has the sign of y, is smaller than y and differs from x by a multiple of y; exactly, without rounding, if the signs agree.", "quantifier": "all pairs of floats, and of a float and an integer; all machines that round as IEEE 754 says", "why_tests_cant": "2^128 pairs", "anchors": ["ruruby/src/arith.rs: rem_float, rem_fixnum, rem_floorf64"]}
{"id": "C108", "title": "puts, p and print write their arguments in order, loop repeats its block", "statement": "`puts` writes one line for every value that is no array, in order, however deeply the arrays are nested, and an empty line without arguments; `p` writes one line of inspect for every argument and returns nil, the argument or an array of them; `print` and a chain of `<<` on standard output write the texts one after the other; if a to_s or inspect raises, what came before has been written and nothing after. `loop` calls its block again and again and ends after the first round that breaks or raises: with the value of break, nil for StopIteration, otherwise with the exception; without such a round it never ends.", "quantifier": "all nested argument lists, all to_s and inspect methods including those that raise or write, all blocks, any number of rounds", "why_tests_cant": "nesting, methods and rounds are unbounded; a loop that never ends cannot be tested", "anchors": ["ruruby/src/builtin/kernel.rs: puts, p, print, loop_", "ruruby/src/builtin/io.rs: output"]}
{"id": "C109", "title": "texts evaluated in a binding share its variables", "statement": "`eval` of a text in a binding reads and assigns the local variables of the place where the binding was made, and the method sees the assignments; names that the text assigns and that are no variables yet become variables of the binding, nil until assigned, and are there for every later text in the same binding, also after an exception; texts may evaluate further texts in the same binding. `local_variables` lists exactly the names that are variables, each once, and `local_variable_defined?` agrees with it.", "quantifier": "all frames around a binding, all histories of evaluations, nested evaluations and assignments by the method, all texts whose steps may depend on everything read", "why_tests_cant": "histories, nesting and data flow are unbounded; the words of the binding move at every new variable", "anchors": ["ruruby/src/builtin/binding.rs: eval, local_variables, local_variable_defined", "ruruby/src/builtin/kernel.rs: eval, binding", "ruruby/src/vm/executor/frame.rs: set_iseq, push_block_frame_from_binding, enumerate_local_vars", "ruruby/src/vm/executor/frame/heap.rs: new_binding", "ruruby/src/vm/executor/method.rs: eval_binding"]}
{"id": "C110", "title": "`div` is the quotient rounded down, `fdiv` the nearest float", "statement": "`a.div(b)` of integers, floats or both is the largest integer that is not above the quotient; division by zero, integer or either float zero, raises ZeroDivisionError. `a.fdiv(b)` is the float nearest to the quotient of two integers.", "quantifier": "all integers and all floats, all machines that round to nearest with any treatment of ties", "why_tests_cant": "the integers go through floats: the result depends on how every quotient rounds, and wrong results lie at isolated operands", "anchors": ["ruruby/src/value/real.rs: quotient, to_f64, is_zero", "ruruby/src/builtin/integer.rs: quotient, fdiv", "ruruby/src/builtin/float.rs: quotient"]}
{"id": "C111", "title": "`defined?` names the kind of an expression or gives nil", "statement": "`defined?(e)` is Ruby's word for the kind of `e` if every part of `e` is defined (variables exist, constants are found, the receivers have the methods) and nil if some part is not or evaluating a receiver raises; it raises nothing itself, assigns nothing, and the values computed before it in the same expression are kept.", "quantifier": "all expressions of any depth, all worlds and all behaviours of the evaluated receivers, all stacks below", "why_tests_cant": "the generated code grows with the expression, and every subset of its parts may be missing or raise", "anchors": ["ruruby/src/codegen/defined.rs: gen_defined, check_defined, defined_str", "ruruby/src/codegen.rs: push_ex_continue", "ruruby/src/vm/executor.rs: exception handling", "ruruby/src/vm/executor/opt_core.rs: CHECK_LOCAL, CHECK_CONST, CHECK_SCOPE, CHECK_IVAR, CHECK_GVAR, CHECK_METHOD"]}
{"id": "C112", "title": "Times follow the calendar and differences are exact", "statement": "`Time.utc(y, m, d, …)` shows the date it was given and refuses fields that name no date or time of the day; adding a day's seconds shows the next date of the Gregorian calendar; `(t + x) - x` is `t`, `(t + x) - t` is `x`; two times are as far apart as calendar and clock say; `t.utc` is the same instant and equal to it; no call panics.", "quantifier": "all dates and times of day within the library's years, all numbers of seconds, both zones, all machines that round to the nearest float", "why_tests_cant": "all dates of half a million years, all integers and floats", "anchors": ["ruruby/src/builtin/time.rs: time_utc, utc, sub, add, year, month, day, TimeInfo", "ruruby/src/value/value.rs: PartialEq (TIME)"]}
{"id": "C113", "title": "Builtin methods keep their values while a block runs", "statement": "A builtin method that calls a block never uses an object that a garbage collection has freed, whatever the block does and whenever the collector runs; the values it returns are the ones the block or the receiver gave it, and nothing else; when it is done, what it held can be freed again.", "quantifier": "all heaps, all receivers, all blocks (any number of allocations, assignments and collections in each call), all comparison orders of a sort, all fibers", "why_tests_cant": "a collection would have to run at the one moment when only a Rust variable holds the value, and the freed cell would have to be used again; the object read then still looks right most of the time", "anchors": ["ruruby/src/builtin/array.rs: map, flat_map, partition, uniq, uniq_, zip, sort, sort_by, inject, select, reject", "ruruby/src/builtin/string.rs: scan", "ruruby/src/builtin/enumerator.rs: next, each, map, with_index", "ruruby/src/vm/executor.rs: VM::mark, temp_push, temp_pop_vec, checked_gc", "ruruby/src/vm/executor/method.rs: exec_native", "ruruby/src/vm/executor/opt_core.rs: handle_block_arg", "ruruby/src/coroutine.rs: FiberContext::mark", "ruruby/src/globals.rs: Globals::mark"]}
{"id": "C114", "title": "Interpolated strings", "statement": "A double-quoted literal with embedded programs (#{...}) and global variables (#$x) is read as its texts, programs and variables in the order written, with every escape replaced; literals side by side are one literal; a variable assigned in one embedded program is known in the next and after the literal. Its value is one string: the texts and the texts of the values in order, where every program runs exactly once, from left to right, and the text of its value is taken (to_s) before the next one runs. An exception ends the literal and nothing to its right runs.", "quantifier": "all texts, all numbers and orders of parts, all embedded programs of the grammar of C49, all values and to_s methods, all states", "why_tests_cant": "the number of parts and what the embedded programs do are unbounded; quotes, braces and escapes can come in any combination", "anchors": ["ruruby-parse/src/parser/literals.rs: parse_string_literal, parse_interporated_string_literal, parse_template", "ruruby-parse/src/parser/lexer.rs: read_string_literal_double, read_interpolate", "ruruby/src/codegen.rs: NodeKind::InterporatedString", "ruruby/src/vm/executor/opt_core.rs: CONCAT_STRING, TO_S", "ruruby/src/value/value.rs: val_to_s"]}
{"id": "C115", "title": "Leaving blocks that builtin methods run: next, break, return and exceptions", "statement": "When a builtin method runs a block written at its call: a value or `next` goes back to the builtin method, which continues with it; `break v` ends the call of the builtin method, whose value is then v; `return v` ends the method the block is written in with value v, through all blocks and builtin methods in between; an exception ends everything up to the innermost rescue clause around it, which continues with it. The program ends exactly if its meaning by these rules is finite, with the value or the exception they give. This holds for blocks nested to any depth, for methods that builtin methods call, and for the calls around them, which continue with their own operands.", "quantifier": "all programs (any nesting of blocks, any recursion of methods), all builtin methods (any strategy of running their block and calling methods), all arguments and states", "why_tests_cant": "control passes through interpreter loops inside builtin methods inside interpreter loops; nesting, strategy and history are unbounded", "anchors": ["ruruby/src/vm/executor.rs: run_loop (exceptions, MethodReturn, BlockReturn), create_proc, create_lambda", "ruruby/src/vm/executor/opt_core.rs: dispatch!, RETURN, BREAK, MRETURN, SEND", "ruruby/src/vm/executor/method.rs: exec_native, eval_block, eval_proc, invoke_proc, invoke_block, invoke_method", "ruruby/src/codegen.rs: NodeKind::Return, Break, Next, Lambda", "ruruby/src/builtin/procobj.rs: proc_call"]}
{"id": "C116", "title": "Objects made and copied are separate", "statement": "`new`, `dup` and `clone` give an object distinct from all others; a copy has the class, the instance variables and the contents of the original (elements are shared, not copied); and whatever operations follow, in any order and on any objects, what is done to one object (push, <<, []=, instance variables, definitions) is seen in that object as it says and in no other.", "quantifier": "all histories of operations on any number of objects (plain objects, numbers, complex numbers, strings, arrays, hashes, classes, fibers)", "why_tests_cant": "two objects that share memory show it only after the right sequence of writes; the histories are unbounded", "anchors": ["ruruby/src/value/rvalue.rs: shallow_dup, set_var, ObjKind", "ruruby/src/value/value.rs: shallow_dup", "ruruby/src/builtin/object.rs: dup", "ruruby/src/builtin/array.rs: array_new, array_elem, dup", "ruruby/src/builtin/hash.rs: hash_new, clone", "ruruby/src/builtin/string.rs: string_new", "ruruby/src/builtin/class.rs: new, class_new", "ruruby/src/value/class.rs: ClassInfo"]}
{"id": "C117", "title": "A text used as a pattern matches itself", "statement": "A string given to sub, gsub, scan, … where a pattern is expected, and Regexp.escape, stand for a pattern that matches exactly that text; a pattern is compiled as it is written (`\\Z` at its end meaning the end of the text), and a literal with the options of its letter; regular expressions made before never change what is compiled. Regexp.new(s) is the same as the literal with that text.", "quantifier": "all texts, all patterns, all histories of regular expressions made before", "why_tests_cant": "the texts are unbounded, and the failing ones end in a particular way; the table of compiled patterns makes the result depend on the history", "anchors": ["ruruby/src/builtin/regexp.rs: from_escaped, from_string, regexp_escape, regexp_new", "ruruby/src/vm/executor.rs: create_regexp, regexp_from_escaped_string, regexp_from_string", "ruruby/src/codegen.rs: const_regexp"]}
{"id": "C118", "title": "How a program ends shows in its exit status", "statement": "A program runs up to its end or to the first exit, abort or unrescued exception, and prints what comes before and nothing after. Its exit status is 0 at the end, the last byte of n after exit(n), and 1 after abort, an unrescued exception, or when the program cannot be loaded. exit writes nothing to the error stream; abort writes its message. Blocks given to at_exit run at the end. ARGV is the list of the arguments after the program.", "quantifier": "all programs (as sequences of acts), all codes, all command lines, all file systems", "why_tests_cant": "the sequences and codes are unbounded; the tests of the repository run inside one process and never look at its status", "anchors": ["ruruby/src/main.rs: main, execute", "ruruby/src/builtin/kernel.rs: exit, abort, at_exit", "ruruby/src/globals.rs: show_err"]}
{"id": "C119", "title": "Collections happen when they should, and only then", "statement": "Collection is on at first and then as the last GC.enable or GC.disable said; these answer whether it was off before. While it is off nothing is collected: every object stays with what was last written to it. While it is on, a program that goes on making objects and passing loops or calls is collected again and again, within a fixed number of objects. GC.start is one collection after which exactly the reachable objects remain. GC.count never goes down; GC.stat tells the number of objects made, of free slots, and of objects that survived.", "quantifier": "all histories of allocations, writes, root changes, checks at loops and calls, and calls of GC's methods", "why_tests_cant": "the claims are about every history; a missed trigger shows only as memory growth after thousands of objects", "anchors": ["ruruby/src/builtin/gc.rs: count, enable, disable, start, stat", "ruruby/src/alloc.rs: check_gc, gc, alloc", "ruruby/src/vm/executor.rs: checked_gc"]}
{"id": "C120", "title": "Every value has one identity, and no two values share one", "statement": "object_id gives two values the same number exactly when they are the same value, and equal? agrees: this holds for immediates and for objects alive at the same time, in every state a program reaches. Two objects never share a byte of memory, the collector finds from an object's address the page and the mark bit that are its own, and setting that bit changes no object.", "quantifier": "all layouts of a page, all addresses of pages the system may give, all cells, all immediates, all histories of allocation and collection", "why_tests_cant": "the system chooses the addresses; a slip in the masks or offsets shows only for some of the 4032 cells of some page", "anchors": ["ruruby/src/alloc.rs: from_inner, get_data_ptr, gc_check_and_mark, alloc_page", "ruruby/src/builtin/object.rs: object_id, equal", "ruruby/src/builtin/basicobject.rs"]}
{"id": "C121", "title": "A regular expression literal stands for the pattern written", "statement": "The text between the slashes reaches the compiler of patterns with its meaning unchanged: ordinary characters and brackets as they are, each escape as the character, class, boundary or group it names in Ruby, and the option letters behind the literal; reading stops right behind it, or in front of an interpolation. Any text can be written in a literal so that the literal matches exactly that text. A literal without an end is an error.", "quantifier": "all texts of literals, all options, all texts behind them", "why_tests_cant": "escapes, brackets and digits interact; the slips found need a group number of 2 or more, or a bracket before an interpolation", "anchors": ["ruruby-parse/src/parser/lexer.rs: read_regexp_sub, check_postfix, get_regexp, consume_tri_octal", "ruruby-parse/src/parser/literals.rs: parse_regexp"]}
{"id": "C122", "title": "A symbol literal stands for the name written", "statement": "A colon in front of a name that Ruby lets be written without quotes (an identifier with an optional !, ? or =, an operator that can be a method, an instance or class variable) is the symbol of exactly that name, and reading stops right behind it, whatever follows, unless what follows makes the name longer. The same holds for the names of methods behind def self. and, without the =, behind the dot of a call. Nothing else is read as a symbol. A program that ends in a colon is a syntax error.", "quantifier": "all names, all texts behind them", "why_tests_cant": "what is read depends on up to two characters behind the name, for every name and every operator that is the beginning of another", "anchors": ["ruruby-parse/src/parser/lexer.rs: read_method_name, read_symbol_literal, consume_ident", "ruruby-parse/src/parser/literals.rs: parse_symbol", "ruruby-parse/src/parser/expression.rs: parse_primary_method"]}
{"id": "C123", "title": "Arrays are made with the elements asked for", "statement": "`Array.new` gives a new array: empty, of n nils, of n times one value, a copy of an array, or of what the block gives for 0 to n-1; `Array[...]` a new array of its arguments. No array that was there changes. Negative sizes and other arguments are errors of the program, as are sizes too big. `Array(x)` is x for an array, empty for nil, what `to_ary` gives, or else what `to_a` gives, and otherwise [x].", "quantifier": "all sizes, values, arrays in memory, all definitions of to_a and to_ary", "why_tests_cant": "sizes and the arrays in memory are unbounded, and to_a and to_ary are the program's own", "anchors": ["ruruby/src/builtin/array.rs: array_new, array_allocate, array_elem, toa", "ruruby/src/builtin/kernel.rs: kernel_array", "ruruby/src/value/value.rs: coerce_to_fixnum, array_from_with_class"]}
{"id": "C124", "title": "Global variables, and the variables that a match sets", "statement": "A global variable has the value given to it last, anywhere in the program, and is nil before that. $&, $' and $1, $2, ... tell about the last match made in the same method: they are nil before it and after a match that failed, and neither calls nor other fibers change them. They cannot be assigned, and reading them never fails.", "quantifier": "all histories of assignments, matches, calls, returns and fibers; all variables that can be written", "why_tests_cant": "the state is shared by all of a program; what matters is the whole history of calls and matches between setting and reading", "anchors": ["ruruby/src/globals/constants.rs: get_global_var, set_global_var", "ruruby/src/vm/executor.rs: get_special_var, set_special_var, get_captures, create_fiber", "ruruby/src/codegen.rs: emit_set_special_var", "ruruby-parse/src/parser/lexer.rs: read_global_var"]}
{"id": "C125", "title": "What an exception object tells", "statement": "E.new(text) makes an exception of the class E. Its message is what the initialize methods of the program pass up to Exception: the text as it is when they hand their arguments on, or the name of the class when nothing is passed. Any number and kind of arguments that initialize takes may be given. message, to_s and inspect agree on the message, and the variables that initialize sets are there.", "quantifier": "all exception classes of all depths, with and without initialize methods, and all texts", "why_tests_cant": "the message depends on every initialize method between the class and Exception, and programs write those", "anchors": ["ruruby/src/builtin/exception.rs: exception_new, exception_allocate, inspect, tos", "ruruby/src/value/rvalue.rs: new_exception", "ruruby/src/vm/executor/method.rs: eval_initialize", "ruruby/src/builtin/object.rs: initialize"]}
{"id": "C126", "title": "Visibility of methods", "statement": "A call runs the method that its class finds if the method may be called there: public methods from everywhere, private ones without a receiver only. private, protected and public decide this for the methods they name, or for those defined after them, and raise NameError for unknown names. module_function makes methods callable on the module itself, for the methods it names or for those defined until the next public or private, and their instance copies private.", "quantifier": "all bodies of classes and modules made of definitions and these statements, all inherited methods, all calls from inside and outside", "why_tests_cant": "visibility depends on the order of all statements of a body; the property is about every call, also those that must not work", "anchors": ["ruruby/src/builtin/module.rs: public, private, protected, module_function", "ruruby/src/vm/executor/opt_core.rs: DEF_METHOD", "ruruby/src/vm/executor/frame.rs: is_module_function, set_module_function"]}
{"id": "C127", "title": "sleep waits", "statement": "sleep(x) with a number of seconds waits at least x seconds and returns the time waited, rounded to whole seconds. A negative number and other values raise an error without waiting. Without an argument it waits until it is woken. No argument stops the interpreter.", "quantifier": "all integers and floats, all clocks", "why_tests_cant": "the numbers at which a conversion fails are far from those one waits for in a test, and a test cannot wait long", "anchors": ["ruruby/src/builtin/kernel.rs: sleep"]}
{"id": "C128", "title": "gets reads the lines of the input", "statement": "Successive calls of gets return the lines of the standard input, each with its newline, in order and without loss; after the last one gets returns nil, so that a loop over gets ends. A line that is not valid text raises an error and is skipped.", "quantifier": "all inputs, of any length, with and without a last newline, and any number of calls", "why_tests_cant": "inputs are unbounded, and the tests of the interpreter have no standard input", "anchors": ["ruruby/src/builtin/kernel.rs: gets"]}
{"id": "C129", "title": "Frozen objects do not change", "statement": "freeze returns the object; from then on every call that would change the object raises a FrozenError and leaves it as it is, and frozen? is true. Copies made with dup are not frozen. Numbers and symbols are always frozen.", "quantifier": "all sequences of push, instance_variable_set, dup, freeze and frozen? on all objects and values", "why_tests_cant": "a frozen object must stay the same under every later sequence of calls, of any length, through any reference", "anchors": ["ruruby/src/builtin/object.rs: freeze, frozen_, dup, instance_variable_set", "ruruby/src/builtin/array.rs: push"]}
{"id": "C130", "title": "The interactive session runs each entry once", "statement": "In the interactive session lines are put together until they are a whole program text; that text is then run exactly once, in the state that the entries before it left, and its value or its error is shown. Interrupting gives up the entry that is not finished and nothing of it is run; the end of the input and exit end the session.", "quantifier": "all sequences of lines, interrupts, failures of the editor and ends of the input, for every parser and every effect of the programs", "why_tests_cant": "the tests of the interpreter do not drive the line editor, and what must hold is about all histories of entries", "anchors": ["ruruby/src/vm/executor/repl.rs: invoke_repl", "ruruby/src/vm/executor/method.rs: eval_binding", "ruruby/src/builtin/binding.rs: irb"]}
{"id": "C131", "title": "The clock of the process and its number", "statement": "Process.clock_gettime(Process::CLOCK_MONOTONIC) never goes back between two calls and follows the time that passes; Process.pid is the number that the system gave the process.", "quantifier": "all instants at which the calls are made, all process numbers, every rounding to floats that keeps the order", "why_tests_cant": "a test sees one process number and a few instants; that the float never decreases is about all pairs of instants", "anchors": ["ruruby/src/builtin/process.rs: clock_gettime, pid"]}
{"id": "C132", "title": "Character literals", "statement": "A question mark in front of a character is the string of exactly that character; with a backslash it is the character that the escape means in a string in double quotes; the program goes on right behind, and no text after the question mark makes the parser panic.", "quantifier": "all characters and escapes after the question mark, all texts that follow", "why_tests_cant": "a test tries a few characters with a few texts behind them; the claim is about every character, every escape and whatever follows", "anchors": ["ruruby-parse/src/parser/lexer.rs: read_char_literal, read_escaped_char", "ruruby-parse/src/parser/literals.rs: parse_char_literal", "ruruby-parse/src/parser.rs: loc"]}
{"id": "C133", "title": "What is written to a file is what is read from it", "statement": "File.read gives the text that File.write last wrote to that file, File.binread its bytes and File.readlines its lines; a write changes no other file, answers the number of bytes, and changes nothing when it raises; reading where there is no file raises.", "quantifier": "all histories of writes, all texts and paths, all file systems", "why_tests_cant": "a test writes one file once; the claim is about every sequence of writes, over paths that may lead to the same file, in any file system", "anchors": ["ruruby/src/builtin/file.rs: write, read, binread, readlines, string_to_path"]}
