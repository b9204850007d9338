{"id": "C01", "title": "Signed integer arithmetic is exact or an error", "statement": "For CEL int operands, `x + y`, `x - y`, `x * y` and `-x` return the exact mathematical result when it is representable in 64-bit two's complement and an OutOfRange 'integer overflow' error otherwise; they never wrap and never report a spurious overflow.", "quantifier": "all pairs of int64 values", "why_tests_cant": "2^128 operand pairs; tests sample a handful of boundary values.", "anchors": ["internal/overflow.cc:CheckedAdd(int64_t)", "internal/overflow.cc:CheckedSub(int64_t)", "internal/overflow.cc:CheckedMul(int64_t)", "internal/overflow.cc:CheckedNegation(int64_t)", "runtime/standard/arithmetic_functions.cc"]}
{"id": "C02", "title": "Unsigned integer arithmetic is exact or an error", "statement": "For CEL uint operands, `x + y`, `x - y`, `x * y` return the exact mathematical result when it lies in [0, 2^64) and an OutOfRange error otherwise.", "quantifier": "all pairs of uint64 values", "why_tests_cant": "2^128 operand pairs.", "anchors": ["internal/overflow.cc:CheckedAdd(uint64_t)", "internal/overflow.cc:CheckedSub(uint64_t)", "internal/overflow.cc:CheckedMul(uint64_t)"]}
{"id": "C03", "title": "Division and modulus are truncated, exact and total", "statement": "`x / y` and `x % y` succeed exactly when y is non-zero and the quotient is representable; then the quotient truncates toward zero, |x % y| < |y|, the remainder takes the sign of x and x == (x/y)*y + x%y. No input reaches C++ undefined behaviour (division by zero, INT64_MIN / -1).", "quantifier": "all pairs of int64 / uint64 values", "why_tests_cant": "Unit tests check individual divisions, not the division law on all operands.", "anchors": ["internal/overflow.cc:CheckedDiv", "internal/overflow.cc:CheckedMod"]}
{"id": "C04", "title": "The portable overflow guards are equivalent to the compiler builtins", "statement": "On toolchains without __builtin_*_overflow the hand-written guards give the same result or error as the builtin path for every operand pair, and evaluating the guards themselves never overflows.", "quantifier": "all pairs of int64 / uint64 values", "why_tests_cant": "The fallback path is not even compiled on the CI toolchains, so no test exercises it.", "anchors": ["internal/overflow.cc (#else branches)"]}
{"id": "C05", "title": "double to int/uint conversion never invokes undefined behaviour and truncates", "statement": "`int(d)` / `uint(d)` yields the truncation toward zero of d whenever accepted, accepts only finite d whose truncation is representable, and rejects NaN, infinities and out-of-range values with an error.", "quantifier": "all 2^64 double bit patterns", "why_tests_cant": "Rounding behaviour near 2^63 and 2^64 must hold on every double.", "anchors": ["internal/overflow.cc:CheckedDoubleToInt64", "internal/overflow.cc:CheckedDoubleToUint64"]}
{"id": "C06", "title": "Integer narrowing conversions preserve value or fail", "statement": "Conversions int64->uint64, uint64->int64, int64->int32, uint64->int32 and uint64->uint32 return a numerically equal value or an OutOfRange error, accept every representable value, and int/uint conversions are mutually inverse where defined.", "quantifier": "all int64 and uint64 values", "why_tests_cant": "Exhaustive testing of 2^64 values is infeasible.", "anchors": ["internal/overflow.cc:CheckedInt64ToUint64", "internal/overflow.cc:CheckedUint64ToInt64", "internal/overflow.cc:CheckedInt64ToInt32", "internal/overflow.cc:CheckedUint64ToInt32", "internal/overflow.cc:CheckedUint64ToUint32"]}
{"id": "C07", "title": "Duration arithmetic is exact or an error", "statement": "Adding, subtracting or negating durations yields the exact nanosecond result or an overflow error.", "quantifier": "all pairs of absl durations (including infinite and beyond 292 years)", "why_tests_cant": "The interesting inputs are durations outside the int64-nanosecond range, which tests never pair up.", "anchors": ["internal/overflow.cc:CheckedAdd(absl::Duration)", "internal/overflow.cc:CheckedSub(absl::Duration)", "internal/overflow.cc:CheckedNegation(absl::Duration)"]}
{"id": "C08", "title": "timestamp + duration is exact and stays in year 1..9999", "statement": "`t + d` (and `t - d`) equals the exact instant when the result lies between 0001-01-01T00:00:00Z and 9999-12-31T23:59:59.999999999Z and is an error otherwise; a successful result is never outside that range.", "quantifier": "all finite timestamps and durations", "why_tests_cant": "Second/nanosecond carry logic must hold for every sign combination and carry.", "anchors": ["internal/overflow.cc:CheckedAdd(absl::Time, absl::Duration)", "internal/overflow.cc:CheckedSub(absl::Time, absl::Duration)"]}
{"id": "C09", "title": "timestamp - timestamp is exact or an error", "statement": "`t1 - t2` equals the exact nanosecond difference when it fits in a signed 64-bit count and an overflow error otherwise.", "quantifier": "all pairs of finite timestamps", "why_tests_cant": "The seconds scaling may overflow where the total does not, a corner no sampled test covers.", "anchors": ["internal/overflow.cc:CheckedSub(absl::Time, absl::Time)"]}
{"id": "C10", "title": "Numeric comparison operators are mutually consistent", "statement": "For any two CEL numbers (int, uint, double in any mix), when neither is NaN exactly one of <, ==, > holds, <= is the disjunction of < and ==, >= of > and ==, and swapping the operands swaps < and >. If either is NaN, all comparisons are false and != is true.", "quantifier": "all pairs of int64 / uint64 / double values", "why_tests_cant": "Consistency across nine operand-type pairs for all values.", "anchors": ["internal/number.h:Number", "internal/number.h:CompareVisitor", "runtime/standard/comparison_functions.cc"]}
{"id": "C11", "title": "Cross-type numeric comparison agrees with the mathematical order", "statement": "Comparing an int with a uint is exact. Comparing an integer with a double never reverses the mathematical order, and is exact whenever the integer magnitude is at most 2^53 or the double is out of the integer range.", "quantifier": "all pairs of int64 / uint64 / double values", "why_tests_cant": "The rounding of integers above 2^53 to double only shows on specific pairs.", "anchors": ["internal/number.h:DoubleCompareVisitor", "internal/number.h:UintCompareVisitor", "internal/number.h:IntCompareVisitor"]}
{"id": "C12", "title": "Lossless numeric conversion is really lossless", "statement": "When a CEL number reports it is losslessly convertible to int (or uint), converting yields an integer with exactly the same mathematical value; every integer-valued double in the range that the check admits is accepted, and fractional, NaN and infinite doubles are not.", "quantifier": "all int64, uint64 and double values", "why_tests_cant": "Boundaries around 2^63 and 2^64 where double spacing is 1024 or 2048.", "anchors": ["internal/number.h:LosslessConvertibleToIntVisitor", "internal/number.h:LosslessConvertibleToUintVisitor"]}
{"id": "C13", "title": "UTF-8 validation accepts exactly well-formed UTF-8", "statement": "Utf8IsValid accepts a byte string iff it is a concatenation of well-formed encodings of Unicode scalar values; Utf8Validate returns the number of code points in, and byte position of, the longest well-formed prefix.", "quantifier": "all byte strings", "why_tests_cant": "Infinite input space; overlong, surrogate and truncated forms at any position.", "anchors": ["internal/utf8.cc:Utf8IsValid", "internal/utf8.cc:Utf8Validate", "internal/utf8.cc:kLeading", "internal/utf8.cc:kAccept"]}
{"id": "C14", "title": "UTF-8 encode/decode round-trips", "statement": "Decoding the encoding of any scalar value returns that value and its length, whatever bytes follow; encoding the code points decoded from well-formed input gives back the input; encoding a non-scalar value yields U+FFFD.", "quantifier": "all code points and all byte strings", "why_tests_cant": "1.1M code points times arbitrary suffixes.", "anchors": ["internal/utf8.cc:Utf8Decode", "internal/utf8.cc:Utf8Encode"]}
{"id": "C15", "title": "Chunking of a string is unobservable to UTF-8 functions", "statement": "Validity, code point count and decoding of a Cord are the same as for the flat string with the same bytes, for every way of splitting the bytes into chunks.", "quantifier": "all byte strings and all chunkings", "why_tests_cant": "Number of chunkings is exponential in the length.", "anchors": ["internal/utf8.cc:CordReader", "internal/utf8.cc:StringReader"]}
{"id": "C16", "title": "size() of a string counts code points", "statement": "The code point count of a string equals the number of scalar values for well-formed strings, is additive over concatenation of well-formed strings, and counts each undecodable byte as one otherwise.", "quantifier": "all byte strings", "why_tests_cant": "Unbounded inputs.", "anchors": ["internal/utf8.cc:Utf8CodePointCount", "common/values/string_value.cc:Size"]}
{"id": "C17", "title": "String literals round-trip", "statement": "Parsing the formatted literal of any well-formed UTF-8 string (single- or double-quoted) returns the same string.", "quantifier": "all well-formed UTF-8 strings", "why_tests_cant": "Unbounded inputs, quote/backslash/control interplay.", "anchors": ["internal/strings.cc:FormatStringLiteral", "internal/strings.cc:ParseStringLiteral", "internal/strings.cc:UnescapeInternal", "internal/strings.cc:EscapeInternal"]}
{"id": "C18", "title": "Bytes literals round-trip", "statement": "Parsing the formatted bytes literal of any byte string returns the same bytes.", "quantifier": "all byte strings", "why_tests_cant": "Unbounded inputs.", "anchors": ["internal/strings.cc:FormatBytesLiteral", "internal/strings.cc:ParseBytesLiteral"]}
{"id": "C19", "title": "Parsed string literals are always well-formed Unicode", "statement": "If the literal text is well-formed UTF-8, a successfully unescaped string value is well-formed UTF-8: no escape can smuggle in a surrogate, an out-of-range code point or a stray byte.", "quantifier": "all literal texts", "why_tests_cant": "Escape sequences combine arbitrarily.", "anchors": ["internal/strings.cc:UnescapeInternal"]}
{"id": "C20", "title": "&& and || absorb errors and unknowns commutatively", "statement": "`a && b` is false if either operand is false, true if both are true, otherwise unknown if either is unknown (with the union of the unknown sets), otherwise an error; dually for ||. The result does not depend on operand order except for which of two errors is reported.", "quantifier": "all operand values including errors and unknowns", "why_tests_cant": "Quantifies over all error and unknown-set payloads.", "anchors": ["eval/eval/logic_step.cc:LogicalOpStep", "eval/eval/logic_step.cc:ReturnLogicResult"]}
{"id": "C21", "title": "Compiled programs leave exactly one value and never hit internal errors", "statement": "For every expression built from constants, variables, &&, ||, !, ?:, strict calls, list literals and comprehensions, the flattened program runs to completion within its bounds: every jump lands inside the program, the stack never underflows, and exactly one value is on the stack at the end.", "quantifier": "all expressions of the modelled language and all activations", "why_tests_cant": "All ASTs of unbounded depth; jump offsets depend on the sizes of subprograms.", "anchors": ["eval/compiler/flat_expr_builder.cc", "eval/eval/evaluator_core.cc:ExecutionFrame::Evaluate", "eval/eval/jump_step.cc"]}
{"id": "C22", "title": "The flattened program computes the expression's meaning", "statement": "Evaluating the flattened program of an expression gives the value (or error, or unknown set) that a direct recursive reading of the CEL semantics gives, with and without short-circuiting.", "quantifier": "all expressions of the modelled language, all activations, both short-circuit settings", "why_tests_cant": "Compiler correctness over all ASTs.", "anchors": ["eval/compiler/flat_expr_builder.cc", "eval/eval/logic_step.cc", "eval/eval/ternary_step.cc", "eval/eval/comprehension_step.cc", "eval/eval/evaluator_core.cc"]}
{"id": "C23", "title": "Recursive and iterative planning agree", "statement": "Turning on recursive planning (max_recursion_depth) does not change an expression's result.", "quantifier": "all expressions of the modelled language and activations", "why_tests_cant": "Two independent evaluators must agree on every AST; parity tests cover a fixed list.", "anchors": ["eval/eval/direct_expression_step.h", "eval/eval/comprehension_step.cc:ComprehensionDirectStep", "eval/eval/logic_step.cc:DirectLogicStep", "eval/eval/ternary_step.cc"]}
{"id": "C24", "title": "The conditional evaluates only the chosen branch", "statement": "With short-circuiting, `c ? a : b` never evaluates (and so never observes errors, unknowns or function calls of) the branch not selected; an error or unknown condition is returned and neither branch runs.", "quantifier": "all conditions and branches", "why_tests_cant": "Must hold for every branch expression.", "anchors": ["eval/eval/ternary_step.cc", "eval/eval/jump_step.cc", "eval/compiler/flat_expr_builder.cc:TernaryCondVisitor"]}
{"id": "C25", "title": "Short-circuiting of logic is unobservable in the value", "statement": "For &&/||, short-circuit and exhaustive evaluation give the same value; short-circuiting only removes evaluations.", "quantifier": "all expressions of the modelled language", "why_tests_cant": "Quantifies over all operands and evaluation histories.", "anchors": ["eval/eval/logic_step.cc", "runtime/runtime_options.h:short_circuiting"]}
{"id": "C26", "title": "Comprehension macros mean what they say", "statement": "`all`, `exists`, `exists_one`, `map`, `filter` expand to comprehensions whose evaluation equals the mathematical quantifier / count / image / sublist over the range, for predicates that are boolean, with errors absorbed by all/exists.", "quantifier": "all ranges and predicates", "why_tests_cant": "Unbounded lists and arbitrary predicates.", "anchors": ["parser/macro.cc", "eval/eval/comprehension_step.cc"]}
{"id": "C27", "title": "The iteration budget bounds total comprehension work", "statement": "With a positive max iterations N, the sum of loop-body executions over all (nested, sequential) comprehensions in one evaluation is below N or the evaluation fails with 'Iteration budget exceeded'; with N = 0 there is no limit; an evaluation that needs fewer iterations is unaffected.", "quantifier": "all programs, ranges and nestings", "why_tests_cant": "Budget is shared over arbitrarily nested loops.", "anchors": ["eval/eval/evaluator_core.h:ComprehensionSlots", "eval/eval/evaluator_core.h:IncrementIterations", "eval/eval/comprehension_step.cc"]}
{"id": "C28", "title": "Comprehension variables are lexically scoped", "statement": "A variable reference resolves to the innermost enclosing comprehension variable of that name, sibling and nested comprehensions never overwrite one another's variables, and outer variables are intact after an inner comprehension finishes.", "quantifier": "all nestings of comprehensions with arbitrary name shadowing", "why_tests_cant": "Slot reuse across arbitrary nestings.", "anchors": ["eval/compiler/flat_expr_builder.cc:IndexManager", "eval/compiler/flat_expr_builder.cc:LookupSlot", "eval/eval/comprehension_slots.h"]}
{"id": "C29", "title": "cel.bind is lazy and evaluated at most once", "statement": "The initializer of a bound variable is evaluated at most once, is not evaluated at all if the variable is never reached, and the result is the same as substituting the initializer's value.", "quantifier": "all initializers and bodies", "why_tests_cant": "Any control flow in the body.", "anchors": ["eval/eval/lazy_init_step.cc", "eval/compiler/flat_expr_builder.cc:BindConditions"]}
{"id": "C30", "title": "Attribute equality and ordering are lawful", "statement": "Attribute and qualifier comparison is a strict weak ordering compatible with equality, so that sets of unknown attributes have no duplicates and lookups are sound.", "quantifier": "all attributes with arbitrary qualifier paths", "why_tests_cant": "Order laws quantify over triples of attributes.", "anchors": ["base/attribute.h:AttributeQualifier", "base/attribute.cc:Attribute::operator<", "base/attribute.cc:Attribute::operator=="]}
{"id": "C31", "title": "Attribute patterns match by prefix", "statement": "A pattern fully matches an attribute iff variables agree and every pattern qualifier matches the attribute's qualifier at that position; it partially matches iff the attribute path is a proper prefix consistent with the pattern. Extending an attribute never loses a full match; wildcards match everything.", "quantifier": "all attributes and patterns", "why_tests_cant": "Unbounded paths.", "anchors": ["base/attribute.h:AttributePattern::IsMatch"]}
{"id": "C32", "title": "Unknowns are tracked exactly", "statement": "The unknown set of a result only contains attributes that were reported unknown by a pattern during the evaluation, and merging unknown sets is union: commutative, associative, idempotent.", "quantifier": "all evaluations of the modelled language", "why_tests_cant": "All patterns and accesses.", "anchors": ["eval/eval/attribute_utility.cc", "base/internal/unknown_set.h"]}
{"id": "C33", "title": "Strict function dispatch", "statement": "A call whose arguments contain an error or unknown never invokes a strict implementation; the result is the first error, or, with unknown processing on, the merged unknown set; otherwise the unique overload whose parameter kinds match is invoked, and no-matching-overload is returned if none.", "quantifier": "all overload sets and argument lists", "why_tests_cant": "All overload sets and argument vectors.", "anchors": ["eval/eval/function_step.cc"]}
{"id": "C34", "title": "Equality is an equivalence on data, except for doubles", "statement": "CEL `==` on data values is reflexive unless a NaN occurs inside, is symmetric, lifts pointwise to lists, is order-insensitive on maps, and compares numbers across int/uint/double by value.", "quantifier": "all values (nested lists and maps)", "why_tests_cant": "Arbitrarily nested values.", "anchors": ["runtime/standard/equality_functions.cc", "common/values/list_value.cc", "common/values/map_value.cc"]}
{"id": "C35", "title": "Membership agrees with equality and indexing", "statement": "`x in list` is true iff some element equals x; `k in map` is true iff `map[k]` succeeds, iff some key equals k, with numeric keys compared by value across types.", "quantifier": "all values, lists and maps", "why_tests_cant": "Cross-type numeric keys at all magnitudes.", "anchors": ["runtime/standard/container_membership_functions.cc", "eval/eval/container_access_step.cc:LookupInMap", "eval/eval/container_access_step.cc:LookupInList"]}
{"id": "C36", "title": "Type inference substitutions stay acyclic", "statement": "The checker's type-parameter bindings never become cyclic, so resolving a type always terminates, whatever sequence of assignability queries and overload resolutions is made.", "quantifier": "all sequences of inference operations", "why_tests_cant": "Histories of unbounded length; a cycle would be a hang.", "anchors": ["checker/internal/type_inference_context.cc"]}
{"id": "C37", "title": "Type assignability is sound", "statement": "Every ground type is assignable to itself and to dyn; after a successful assignability check, substituting the resulting bindings makes the source type assignable to the target; a failed check leaves the bindings unchanged.", "quantifier": "all types", "why_tests_cant": "Unbounded nested types.", "anchors": ["checker/internal/type_inference_context.cc:IsAssignable"]}
{"id": "C38", "title": "Container name resolution order", "statement": "Name candidates are generated from the innermost container namespace outward ending with the unqualified name; a leading dot disables the container; an alias takes precedence over the container; for qualified selectors, within a namespace longer names come first.", "quantifier": "all containers, aliases and names", "why_tests_cant": "Unbounded names and containers.", "anchors": ["checker/internal/namespace_generator.cc", "common/container.cc"]}
{"id": "C39", "title": "Logical-operator balancing preserves order and meaning with logarithmic depth", "statement": "Balancing a chain of n terms joined by && (or ||) yields a tree whose in-order leaves and operators are the original ones, whose evaluation equals the left-to-right chain for boolean and unknown/error results, and whose depth is at most ceil(log2 n).", "quantifier": "all term lists", "why_tests_cant": "Chain length is unbounded.", "anchors": ["parser/parser.cc:ExpressionBalancer"]}
{"id": "C40", "title": "sets extension implements set algebra", "statement": "sets.contains(a,b) iff every element of b equals some element of a; sets.intersects(a,b) iff some element is common; sets.equivalent iff mutual containment; equivalence is reflexive (NaN-free), symmetric; containment is transitive when equality is.", "quantifier": "all lists of values", "why_tests_cant": "Unbounded lists.", "anchors": ["extensions/sets_functions.cc"]}
{"id": "C41", "title": "lists extension: distinct, flatten, slice, reverse, range, sort", "statement": "distinct keeps the first occurrence of each value and nothing else; flatten(n) removes n levels; slice(i,j) is the sublist; reverse is an involution; range(n) is 0..n-1; sort returns a permutation ordered by the keys.", "quantifier": "all lists and parameters", "why_tests_cant": "Unbounded lists; std::sort's comparator requirements.", "anchors": ["extensions/lists_functions.cc"]}
{"id": "C42", "title": "Source positions round-trip", "statement": "For every offset in a source, converting to line/column and back gives the same offset; line offsets are strictly increasing and cover the text; every line's text is the corresponding slice.", "quantifier": "all source texts and positions", "why_tests_cant": "Unbounded texts.", "anchors": ["common/source.cc"]}
{"id": "C43", "title": "Overload registration keeps the registry unambiguous", "statement": "No sequence of registrations leaves two overloads of one name and style whose parameter shapes overlap; a non-strict function has a single overload; failed registration changes nothing; lookup by shape finds every match.", "quantifier": "all registration histories", "why_tests_cant": "Histories of unbounded length.", "anchors": ["runtime/function_registry.cc", "common/function_descriptor.cc"]}
{"id": "C44", "title": "Activation variables: providers run at most once", "statement": "A value provider registered for a variable is invoked at most once with a value per registration (memoised), later bindings replace earlier ones, and lookups return what was last bound.", "quantifier": "all histories of insertions and lookups", "why_tests_cant": "Histories of unbounded length and interleaving.", "anchors": ["runtime/activation.cc"]}
{"id": "C45", "title": "math extension: bit operations and extrema", "statement": "math.bitShiftLeft/Right/And/Or/Xor/Not on int/uint match their arithmetic meaning with the documented behaviour for shifts >= 64 and errors for negative shifts; greatest/least return an element of the arguments that bounds all others; sign/abs are exact or error.", "quantifier": "all int64/uint64/double arguments", "why_tests_cant": "64-bit operand space and unbounded argument lists.", "anchors": ["extensions/math_ext.cc"]}
{"id": "C46", "title": "strings extension is code-point exact", "statement": "substring, charAt, indexOf, lastIndexOf, replace, split, join, reverse, lowerAscii/upperAscii operate on code points consistently: e.g. s.substring(0,i)+s.substring(i) == s, join(split(s,sep),sep) == s, indexOf finds the first occurrence, out-of-range is an error.", "quantifier": "all strings and indexes", "why_tests_cant": "Unbounded strings.", "anchors": ["extensions/strings.cc", "common/values/string_value.cc"]}
{"id": "C47", "title": "Map literals and list literals build what is written", "statement": "A map literal with distinct keys yields exactly the given associations; a repeated key or a key of unsupported type is an error; list literals preserve order and drop only absent optional entries; errors and unknowns in elements surface.", "quantifier": "all literals", "why_tests_cant": "Unbounded literals.", "anchors": ["eval/eval/create_map_step.cc", "eval/eval/create_list_step.cc", "common/values/value_builder.cc"]}
{"id": "C48", "title": "has() and field selection agree", "statement": "has(m.f) is true iff m.f would succeed on a map; selecting a missing key is a no-such-key error; optional selection yields none exactly when has() is false.", "quantifier": "all maps and fields", "why_tests_cant": "Unbounded values.", "anchors": ["eval/eval/select_step.cc"]}
{"id":"C49","title":"String and bytes literals denote what the CEL grammar says","statement":"ParseStringLiteral / ParseBytesLiteral accept a text exactly when it is a CEL string / bytes literal (plain or raw, single or triple quoted, no unescaped closing quote inside, only defined escapes, code points that are scalar values) and return the value the language definition assigns to it.","quantifier":"every byte string given as literal text","why_tests_cant":"The accepted language is infinite and mixes escapes, quotes, raw mode and newline normalisation in every order.","anchors":["internal/strings.cc:CheckForClosingString","internal/strings.cc:UnescapeInternal","internal/strings.cc:ParseStringLiteral","internal/strings.cc:ParseBytesLiteral"]}
{"id": "C50", "title": "Constant folding is unobservable", "statement": "Enabling constant folding does not change the outcome of any expression under any activation (values, errors, failing statuses, unknowns found by attribute patterns), as long as functions registered as neither lazy nor contextual depend on their arguments only; the pass never makes planning fail; and a constant subexpression with a value is replaced by that value.", "quantifier": "all expressions of the modelled language, activations, attribute patterns, options, scopes and host states", "why_tests_cant": "Folding runs with an empty activation and different patterns than the later evaluation; agreement must hold for every later activation.", "anchors": ["eval/compiler/constant_folding.cc:IsConstExpr", "eval/compiler/constant_folding.cc:ConstantFoldingExtension::OnPostVisit"]}
{"id": "C51", "title": "Reference counting is safe under every schedule", "statement": "Whatever the threads do with the strong and weak references they hold, and however the atomic operations of StrongRef, StrongUnref, WeakRef, WeakUnref, StrengthenRef, IsUniqueRef and IsExpiredRef interleave: the object is finalized at most once and only after the last strong reference is gone, its memory is freed exactly once and only after the last weak reference is gone, no operation touches freed memory, nothing leaks when all references are dropped, StrengthenRef succeeds only while the object is not finalized, an expired object stays expired, and IsUniqueRef answers true only when the caller holds the only strong reference.", "quantifier": "any number of threads, every interleaving of their atomic steps (including spurious compare-exchange failures), every history of reference operations whose number of live references fits int32", "why_tests_cant": "The number of interleavings of lock-free counter operations is unbounded and the interesting ones are rare.", "anchors": ["common/internal/reference_count.h:StrongRef", "common/internal/reference_count.h:StrongUnref", "common/internal/reference_count.h:StrengthenRef", "common/internal/reference_count.h:WeakUnref"]}
{"id": "C52", "title": "Byte strings behave as plain bytes and own their memory correctly", "statement": "Through every sequence of constructions, copies, moves, assignments, swaps, substrings, RemovePrefix/RemoveSuffix, concatenations, clones, borrows, conversions to and from Cord and destructions that keeps to the interface, every byte string reads as the plain sequence of bytes it stands for, whether it is stored inline, shared by reference count, on an arena, external or a cord; no released memory is read or released again; when no string is left no counted memory is left; size is the number of bytes; and the copy on a given allocator says it is on that allocator's arena.", "quantifier": "all histories of operations on any number of byte strings, all contents, sizes, cut positions and arenas", "why_tests_cant": "Sharing makes the effect of one operation depend on the whole history of others; the representation switches at size boundaries.", "anchors": ["common/internal/byte_string.cc:ByteString::Construct", "common/internal/byte_string.cc:ByteString::CopyFrom", "common/internal/byte_string.cc:ByteString::MoveFrom", "common/internal/byte_string.cc:ByteString::Substring", "common/internal/byte_string.cc:ByteString::Concat"]}
{"id": "C53", "title": "Find answers the first occurrence", "statement": "ByteString::Find(needle, pos), for pos within the string, answers the first position from pos on at which the needle occurs, and nothing when it does not occur, whatever the representation of the string and however the needle is split into chunks.", "quantifier": "all strings in all representations, all needles and their splits into chunks, all positions", "why_tests_cant": "The fragmented search skips from one occurrence of the first chunk to the next; a missed occurrence shows only for particular overlaps of needle and text.", "anchors": ["common/internal/byte_string.cc:ByteString::Find"]}
{"id": "C54", "title": "Unparsed text reads back as the expression it was printed from", "statement": "Unparse(expr), without recorded macro calls, prints a text that Parse accepts and turns into the same expression, up to the association of chains of && and of ||, which the parser rebalances; and printing that expression again gives the same text.", "quantifier": "all expressions that source text can denote, of any depth and width, with every combination of operators, macros and literals, for every setting of the parser options", "why_tests_cant": "Whether parentheses are needed depends on every pair of nested operators at every depth; a test fixes one expression at a time.", "anchors": ["tools/cel_unparser.cc:Unparse", "common/operators.cc:LookupPrecedence", "parser/parser.cc:Parse", "parser/internal/Cel.g4", "parser/macro.cc"]}
{"id": "C55", "title": "A compiled policy has first-match semantics", "statement": "Evaluating the expression CompilePolicy produces gives what the policy says: the matches of a rule are tried in order, a match is taken when its condition holds, a nested rule without a condition (or with the literal true) that has no match falls through to the next match, a nested rule whose condition holds does not; variables of a rule see the earlier ones and those of enclosing rules, and hide them; the result is the plain value if the shape of the policy guarantees a match and otherwise an optional. The compiler refuses exactly the policies with repeated variable names, empty rules, empty matches or unreachable matches, and never fails with an internal error.", "quantifier": "all policies of any depth and width, all expressions in them, all functions, all activations, all unnesting limits", "why_tests_cant": "The composed expression depends on the exhaustiveness of every nested rule and on the slot numbers of all variables declared before; a test evaluates one policy on one activation.", "anchors": ["policy/compiler.cc:FirstMatchComposer::ComposeRule", "policy/compiler.cc:IsExhaustive", "policy/compiler.cc:CheckMatchStructure", "policy/compiler.cc:ResolvePolicyVariable", "eval/eval/optional_or_step.cc:EvalOptionalOr"]}
{"id": "C56", "title": "Unnesting does not change the value of a policy", "statement": "A policy compiled with any unnesting_height_limit that the compiler accepts evaluates, on every activation, to the same value or error as the policy compiled without unnesting.", "quantifier": "all policies, all limits, all functions, all activations", "why_tests_cant": "Which subexpressions become slots depends on the height of every node modulo the limit; a cut below a comprehension, or in the wrong order, would show only for particular shapes.", "anchors": ["policy/compiler.cc:Unnester::Slice", "policy/compiler.cc:UnnestRewriter", "policy/compiler.cc:Unnester::Cleanup"]}
{"id": "C57", "title": "Unnesting keeps the height of the AST near the limit", "statement": "With unnesting_height_limit set, the height of the final AST exceeds the limit by at most a fixed margin.", "quantifier": "all accepted policies and all limits", "why_tests_cant": "The claim is about the tallest path of an arbitrary expression.", "anchors": ["policy/compiler.h:CompilePolicyOptions", "policy/compiler.cc:Unnester::Slice", "common/navigable_ast.cc:NavigableExprBuilderVisitor"]}
{"id": "C58", "title": "Signatures identify types and overloads", "statement": "MakeTypeSpecSignature and MakeOverloadSignature give a string from which ParseTypeSpec and ParseFunctionSignature recover the type (message types as named types, missing inner types as dyn), the function name, whether it is a member, and the argument types, whatever characters other than blanks the names contain; so two overloads share a signature only if they are the same. A signature written by hand in any accepted form, with any blanks, has a canonical form that reads as the same type. Types named like a type of the language are excepted.", "quantifier": "all type specs of any depth, all names, all signature strings", "why_tests_cant": "Escaping must match in writer and scanner at every bracket depth and for every combination of special characters; a missed character collides two overload ids only for particular names.", "anchors": ["common/signature.cc:AppendTypeDesc", "common/signature.cc:MakeOverloadSignature", "common/signature.cc:ParseTypeSignature", "common/signature.cc:ParseFunctionSignature", "common/signature.cc:SignatureScanner"]}
{"id": "C59", "title": "A function declaration never holds colliding overloads", "statement": "Whatever sequence of AddOverload calls is made on a FunctionDecl, overload ids are unique and FindOverloadById finds each overload by its id; no two overloads collide; a refused overload leaves the declaration unchanged; whether a set of overloads is accepted does not depend on their order; and no call's argument types match two overloads.", "quantifier": "all histories of AddOverload calls, all argument types, all orders", "why_tests_cant": "The indexes and the pairwise collision check must stay consistent over every history, and ambiguity ranges over all pairs of types.", "anchors": ["common/decl.cc:AddOverloadInternal", "common/decl.cc:SignaturesOverlap", "common/decl.cc:TypeIsAssignable", "common/decl.cc:FindOverloadById"]}
{"id": "C60", "title": "Checked expressions do not go wrong", "statement": "If the type checker accepts an expression and gives none of its parts a dynamic, wrapper or error type, the functions it calls and fields it sets are declared without such types, and its comprehensions are of the form the macros write, then, evaluated with variables, functions and messages that keep to their declarations, it gives a value of the type the checker deduced (and of the expected type, if one was asked for), or an error other than a type error, or an unknown where unknowns are processed: never 'No matching overloads found', a selection from a non-message, a container or index of the wrong type. A call dispatched at run time among implementations of the declared overloads always finds one.", "quantifier": "all declarations, all expressions of any size, all implementations that keep to the declarations, all values of the variables, all runtime options", "why_tests_cant": "Soundness relates two programs, checker and evaluator, over every expression and environment; inference, widening and instantiation interact across the whole expression.", "anchors": ["checker/internal/type_checker_impl.cc:ResolveVisitor", "checker/internal/type_checker_impl.cc:CheckImpl", "checker/internal/type_inference_context.cc", "eval/compiler/flat_expr_builder.cc", "eval/eval/function_step.cc", "eval/eval/select_step.cc", "eval/eval/container_access_step.cc", "eval/eval/comprehension_step.cc"]}
{"id": "C61", "title": "ASTs survive the trip through their protos", "statement": "Writing an AST to ParsedExpr or CheckedExpr and reading it back gives the same AST: same expression (up to ==), source info, references, types and version; both conversion loops finish, use no dangling pointer and do not depend on what the target held. Reading a proto expression fails exactly when a message construction has a map key or a map construction has a field key; otherwise writing it again gives its normal form. An unchecked AST is refused as CheckedExpr.", "quantifier": "all expressions of any shape and size, all constants, all types, all source infos and maps, all prior contents of the target expression", "why_tests_cant": "The converters are hand-written explicit-stack loops that keep pointers into containers they are still growing; that no pointer dangles and that the two directions are inverse must hold for every tree shape.", "anchors": ["common/ast/expr_proto.cc:ExprToProto", "common/ast/expr_proto.cc:ExprFromProto", "common/ast/constant_proto.cc", "internal/proto_time_encoding.cc", "common/ast_proto.cc:AstToCheckedExpr", "common/ast_proto.cc:CreateAstFromCheckedExpr", "common/ast_proto.cc:AstToParsedExpr", "common/ast/source_info_proto.cc:SourceInfoToProto"]}
{"id": "C62", "title": "Copying, comparing and destroying expressions", "statement": "A copied Expr has the same ids and data at every node and compares equal to the original; operator== is symmetric and transitive and decides equality up to unset children, the sign of zero (and the second iteration variable); FlattenedErase ends, reads no destroyed node, clears every node exactly once and after everything below it, leaves the default expression, and never nests destructors more than one level.", "quantifier": "all expressions of any shape, size and depth", "why_tests_cant": "Pointers into growing vectors and an intrusive list threaded through the nodes' own ids must be right for every tree shape and depth.", "anchors": ["common/expr.cc:CopyNode", "common/expr.cc:CloneImpl", "common/expr.cc:Expr::FlattenedErase", "common/expr.h:operator=="]}
{"id": "C63", "title": "Traversal visits every node once, in order, with any amount of interruption", "statement": "AstTraverse and the step-wise AstTraversal call the visitor for exactly the set subexpressions of the expression (and for the unset list elements and comprehension parts that are read as the default expression): pre-visit before anything below, in child order, post-visit after everything below, comprehension, call-argument and target callbacks in between as documented; both end, follow no dangling pointer, and stepping gives at every point a prefix of the same calls, Step() saying truthfully whether there is more.", "quantifier": "all expressions of any shape and size, both settings of comprehension callbacks, any number of steps", "why_tests_cant": "An explicit stack replaces recursion; that its calls are those of the recursive description must hold for every tree shape and at every interruption point.", "anchors": ["common/ast_traverse.cc:PushDependencies", "common/ast_traverse.cc:PreVisit", "common/ast_traverse.cc:PostVisit", "common/ast_traverse.cc:AstTraverse", "common/ast_traverse.cc:AstTraversal::Step"]}
{"id": "C64", "title": "NavigableAst describes the expression it was built from", "statement": "Build ends and gives one node per visited expression; each node has the right expression, kind, parent, children, child index, relation to its parent, tree size and height; the preorder descendants of a node are the nodes below it; the postorder traversal of the root lists every node once, children first; FindId and FindExpr find the node and IdsAreUnique says whether ids repeat.", "quantifier": "all expressions, all their nodes, all ids", "why_tests_cant": "Sizes, heights and spans are computed incrementally during traversal and indexed as array slices; correctness must hold for every tree.", "anchors": ["common/navigable_ast.cc:NavigableExprBuilderVisitor", "common/navigable_ast.cc:GetChildKind", "common/navigable_ast.h:NavigableAstNode", "common/ast/navigable_ast_internal.h"]}
{"id": "C65", "title": "Validators accept exactly what they say", "statement": "AstDepthValidator accepts exactly the expressions no part of which lies deeper than the limit; the nesting validator exactly those with at most the given number of comprehensions around any comprehension (loops over [] not counted); the homogeneous-literal validator exactly those whose list and map literals, outside exempt calls, have elements of types equal to the first up to wrapping (error types go with anything); the regex validator exactly those whose constant pattern operands compile; the timestamp and duration validators exactly those whose constant conversions evaluate without error. A rejected expression has an issue, an accepted one none; Validator combines them and drops the AST exactly if one fails.", "quantifier": "all expressions of any shape and size, all limits, type maps, exempt functions, configurations", "why_tests_cant": "Each is a claim about every node of every expression and, for conversions, an agreement between two independent pieces of code.", "anchors": ["validator/ast_depth_validator.cc", "validator/comprehension_nesting_validator.cc", "validator/homogeneous_literal_validator.cc", "validator/regex_validator.cc", "validator/timestamp_literal_validator.cc", "validator/validator.cc"]}
{"id": "C66", "title": "string.format follows its template", "statement": "`template.format(args)` succeeds exactly if the template is literal bytes, %%, and clauses %[.N]L with N at most the configured limit and L one of s d f e b x X o, and there are enough arguments of suitable kinds; the result is the literals with each clause replaced by the text of its argument. %d %b %o %x give the exact numeral of every int and uint, %x of strings and bytes two digits a byte, %.Nf the nearest decimal with N places, %s of lists and maps the texts of the parts (maps sorted by key text, whatever the iteration order), of durations the exact value. It never reads out of bounds.", "quantifier": "all templates, argument lists, nested values and precision limits", "why_tests_cant": "Templates and values are unbounded; boundary numbers (least int), map iteration order and truncated templates must all be right.", "anchors": ["extensions/formatting.cc:Format", "extensions/formatting.cc:ParseAndFormatClause", "extensions/formatting.cc:FormatMap", "extensions/formatting.cc:FormatBinary"]}
{"id": "C67", "title": "Date and time accessors agree with the calendar", "statement": "getFullYear, getMonth, getDate, getDayOfMonth, getDayOfYear, getDayOfWeek, getHours, getMinutes, getSeconds and getMilliseconds of a timestamp are the fields of the proleptic Gregorian date and time of day shown at that instant, in UTC, at a fixed offset, or in a named zone; unknown zones are errors; the accessors of durations count whole units of the duration toward zero, milliseconds being those within the second.", "quantifier": "all timestamps (also negative), all offsets, all zones, all durations", "why_tests_cant": "The calendar must be right for every day of 9999 years and both sides of 1970.", "anchors": ["runtime/standard/time_functions.cc:FindTimeBreakdown", "runtime/standard/time_functions.cc:RegisterTimestampFunctions", "runtime/standard/time_functions.cc:RegisterDurationFunctions"]}
{"id": "C68", "title": "Conversions to and from text", "statement": "int(string) and uint(string) accept exactly the decimal texts (leading and trailing white space and a sign allowed) of numbers in range and give that number; string(int), string(uint), string(bool), bytes(string), string(duration) and string(timestamp) give a text that denotes the value exactly and converts back to it; string(bytes) succeeds exactly on valid UTF-8; timestamp(int) and int(timestamp) are inverse, rounding down.", "quantifier": "all values and all texts", "why_tests_cant": "A claim about all 2^64 numbers, all instants and all texts, including every way a text can be malformed.", "anchors": ["runtime/standard/type_conversion_functions.cc", "internal/time.cc:EncodeDurationToJson", "internal/time.cc:EncodeTimestampToJson", "internal/time.cc:ParseDuration"]}
{"id": "C69", "title": "Optional access and construction", "statement": "For every map of data and every bool, string or number key, m[?k] is an optional, never an error: present exactly when `k in m`, holding then the value of m[k], absent exactly when m[k] is the no-such-key error. For every list and int index, l[?i] is present exactly when the index is in range and holds the element. m.?f and msg.?f are present exactly when has() holds and hold the value of the field. Through an optional these are absent when it is absent and otherwise the access on its content. optional.ofNonZeroValue is absent exactly for the zero values; first() and last() give the end elements, absent for the empty list; unwrapOpt gives the held values in order and an error for a non-optional element.", "quantifier": "all maps, lists, messages, keys, indices, field names and host states", "why_tests_cant": "A claim about every container and key, including the numerically equal keys of different types and all out-of-range indices.", "anchors": ["runtime/optional_types.cc", "common/values/optional_value.cc", "eval/eval/container_access_step.cc", "eval/eval/select_step.cc"]}
{"id": "C70", "title": "or and orValue", "statement": "a.or(b) and a.orValue(b) evaluate b exactly when a is an absent optional; errors and unknowns of a are forwarded; the result is the same (value, effects and attribute provenance) whether the expression is evaluated recursively or by the stack machine, and, effects of b aside, with and without short circuiting; or is associative and a.or(b).orValue(c) is a.orValue(b.orValue(c)).", "quantifier": "all operand expressions with arbitrary results and effects", "why_tests_cant": "A claim about all operands including failing, unknown and side-effecting ones, and about three separate implementations.", "anchors": ["eval/eval/optional_or_step.cc", "eval/compiler/flat_expr_builder.cc:BinaryCondVisitor"]}
{"id": "C71", "title": "transformMap and transformMapEntry", "statement": "target.transformMap(k, v, e) is the map that sends every key (or list index) of target to the value of e there; with a predicate, only the elements satisfying it appear. target.transformMapEntry(k, v, e), where e is a map, is the union of these maps, and the error 'duplicate key in map' when two of them share a key. The first unsupported key, duplicate key or error of e decides the result, whatever comes later. The result does not depend on whether the accumulator is rebuilt or inserted into.", "quantifier": "all ranges, transforms, predicates and activations", "why_tests_cant": "A claim about every range and every transform, including duplicates and errors at any position.", "anchors": ["extensions/comprehensions_v2_macros.cc:ExpandTransformMap3Macro", "extensions/comprehensions_v2_functions.cc:MapInsertKeyValue,MapInsertMap"]}
{"id": "C72", "title": "Building comprehension results in place is unobservable", "statement": "Turning on enable_comprehension_list_append or enable_comprehension_mutable_map never changes the value of an expression: the lists and maps built by map, filter, transformList, transformMap and transformMapEntry are those built without these options.", "quantifier": "all expressions, ranges, activations and evaluation options", "why_tests_cant": "The optimised program mutates objects that other references could see; absence of an observable alias is a claim about all expressions, and about the combination with every other option.", "anchors": ["eval/compiler/flat_expr_builder.cc:IsOptimizableListAppend,IsOptimizableMapInsert,HandleListAppend", "runtime/standard/container_functions.cc:AppendList", "common/values/value_builder.cc:NewMutableListValue,NewMutableMapValue"]}
{"id": "C73", "title": "The comprehension vulnerability check bounds growth", "statement": "With the comprehension vulnerability check enabled, a planned comprehension cannot grow its accumulator exponentially: in every iteration the accumulator grows by at most an amount that depends on the expression and the other values, not on the accumulator. The check never rejects an expression produced by the parser's macros.", "quantifier": "all expressions including hand-written ASTs, all ranges, activations and functions", "why_tests_cant": "Growth is a claim about arbitrarily many iterations of arbitrary loop steps; a test can only show that particular steps are accepted or rejected.", "anchors": ["eval/compiler/comprehension_vulnerability_check.cc:ComprehensionAccumulationReferences,ComprehensionHasMemoryExhaustionVulnerability", "runtime/comprehension_vulnerability_check.cc:EnableComprehensionVulnerabiltyCheck"]}
{"id": "C74", "title": "Regular expression extensions find and replace exactly the matches", "statement": "regex.extract returns the first match (or its single group) or none; regex.extractAll returns every non-empty match from left to right; regex.replace replaces every match, or the first count matches when a positive count is given, and leaves the rest of the target unchanged; a negative count means all. re.captureN maps each group's name or number to its capture. An invalid pattern, an invalid replacement, or too many groups is an error value; no call fails to terminate.", "quantifier": "all targets, patterns, replacement strings and counts", "why_tests_cant": "The loops re-search what is left of the target after every match; whether they find the matches of the target depends on every pattern and target, and pattern classes (anchors, empty matches) behave differently.", "anchors": ["extensions/regex_ext.cc:Extract,ExtractAll,ReplaceAll,ReplaceN", "extensions/regex_functions.cc:CaptureStringN"]}
{"id": "C75", "title": "Precompiling constant patterns is not observable", "statement": "With regular expression precompilation enabled, a program gives the same result as without for every activation: matches() with a constant pattern answers the same, errors and unknowns in the subject propagate the same way, other functions named matches are left alone; a program whose patterns are all valid can always be created.", "quantifier": "all expressions, activations, unknown patterns, host functions, recursive and stack plans", "why_tests_cant": "The pass replaces calls inside arbitrary expressions and shares compiled programs between them; agreement ranges over all surroundings of the call and all outcomes of its subject.", "anchors": ["eval/compiler/regex_precompilation_optimization.cc:RegexPrecompilationOptimization,RegexProgramBuilder,IsFunctionOverload", "eval/eval/regex_match_step.cc:RegexMatchStep,RegexMatchDirectStep", "runtime/standard/regex_functions.cc:RegisterRegexFunctions"]}
{"id": "C76", "title": "Values survive conversion to JSON", "statement": "Converting a value without protobuf messages to JSON succeeds exactly when nothing in it is a type, optional or other opaque value, error or unknown and all map keys are strings; what the target message held does not matter. Reading the result back gives an equal value, and two values are equal just when their JSON is, for null, booleans, strings, doubles other than NaN, integers of at most 53 bits, lists and maps of these. Such integers become exactly that number, others their decimal numeral; reading JSON and converting it again gives the same JSON with unset parts made null.", "quantifier": "all values of any shape and depth, all integers, all JSON messages, all prior contents of the target", "why_tests_cant": "Round trips must hold for every nesting of lists and maps, every number and every double; the limits lie at particular 53-bit values.", "anchors": ["common/value.cc:Value::ConvertToJson", "common/values/value_builder.cc:ListValueToJsonArray,MapValueToJsonObject,ValueToJsonString", "internal/well_known_types.cc:ValueReflection,StructReflection::InsertField", "common/values/parsed_json_value.cc:ParsedJsonValue", "common/json.h:kJsonMaxInt"]}
{"id": "C77", "title": "JSON-backed values behave like native ones", "statement": "A list or map backed by a JSON message behaves like the list or map it denotes: comparing two JSON messages gives what Value::Equal and == give on the denoted values; lookup, presence, size, keys, indexing and membership give the same answers for every key, index and element. Only two handles of one message that contains a NaN are told apart (equal by address).", "quantifier": "all JSON messages of any shape and depth, all keys, indices and elements of all kinds", "why_tests_cant": "Separate C++ code answers for JSON-backed and for native containers, with cases per kind of argument; agreement ranges over all pairs of containers and arguments.", "anchors": ["internal/json.cc:JsonEqualsState", "common/values/parsed_json_list_value.cc:Contains,Get,operator==", "common/values/parsed_json_map_value.cc:Find,Has,ListKeys,operator=="]}
{"id": "C78", "title": "The JSON form of protocol buffer messages", "statement": "A message converts to JSON exactly when every field mask in it has only paths without upper-case letters and with a lower-case letter after every underscore, and every Any in it can be unpacked. Written to a target that is not already an object, the result is a well-formed JSON object with exactly one member per set field, under the field's JSON name and with the field's JSON form; a map field becomes an object with one member per entry, no two keys having the same text, a repeated field an array with one element per element; an Any becomes its content with the type name added. Field mask paths can be read back off their JSON spelling. Messages of one type that have the same JSON form are equal, unless they contain Any, undeclared enum numbers, invalid durations or timestamps, or field mask paths that are empty or contain commas. Selecting a scalar field and converting the value gives the field's JSON form, except for enums.", "quantifier": "all messages of any shape and depth given by their set fields (scalars, messages, repeated and map fields, all well-known types), all field mask paths, all prior contents of the target", "why_tests_cant": "Nothing may be lost or overwritten for any nesting of messages, maps and repeated fields, any key and any number; the failing conditions range over all strings and all positions in a message.", "anchors": ["internal/json.cc:MessageToJsonState,SnakeCaseToCamelCaseImpl,MessageToJson,MessageFieldToJson", "internal/well_known_types.cc:AdaptAny,StructReflection::InsertField", "common/values/parsed_message_value.cc:ConvertToJson", "common/values/parsed_map_field_value.cc:ConvertToJson,SerializeTo", "common/values/parsed_repeated_field_value.cc:ConvertToJson,ConvertToJsonArray,SerializeTo"]}
{"id": "C79", "title": "Equality of message fields agrees with equality of the values they denote", "statement": "Comparing two operands, each a repeated field, a map field, a singular field or a message (any well-known type, any nesting of Any, JSON messages of any depth), gives exactly the result of comparing the CEL values they denote: numbers compare across types by value, map keys match across integer types when the numbers are equal, wrappers, JSON values and packed messages count as what they contain. The comparison is symmetric and always succeeds unless an Any of a known type cannot be parsed or a duration or timestamp is out of range; whatever errors hide in the operands, two operands found equal denote equal values. Empty lists (or empty maps) are equal when their fields have compatible types.", "quantifier": "all pairs of operands of every shape, of any length, with contents in the range of their types; all keys of all six key types and all target key types", "why_tests_cant": "The agreement ranges over all pairs of field types, all integers at the borders of the key conversions, all nestings of Any and JSON and all orders of map entries.", "anchors": ["internal/message_equality.cc:MessageEquals,MessageFieldEquals,CoalesceMapKey,GetEquatableCategory,GetEquatableFieldCategory,EquatableValueEquals,AsEquatableValue,MapFieldEquals,RepeatedFieldEquals,SingularFieldEquals,FieldEquals", "internal/well_known_types.cc:AdaptAny,UnpackAnyIfResolveable,DurationReflection::ToAbslDuration,TimestampReflection::ToAbslTime", "common/values/parsed_repeated_field_value.cc:Equal", "common/values/parsed_map_field_value.cc:Equal"]}
{"id": "C80", "title": "Optimizing chains of selects does not change the outcome", "statement": "An expression evaluates to the same outcome whether or not the select optimization rewrites its chains of field selections, map keys and constant indices into single steps: the same value, an error where there was an error, an aborted evaluation where there was one; and the same with the traversal inside protobuf messages as with the generic fallback. This holds for expressions nested in any way in others, when operands have the types the checker gave them.", "quantifier": "all expressions of any depth with any other operations around the chains, all descriptor pools, all messages, all paths of any length, all options (heterogeneous equality, null for unset wrappers, forced fallback)", "why_tests_cant": "The rewritten step walks a path of any length through messages of any shape, switches between two implementations in the middle, and must agree with a fold of independent steps for every key, index and message.", "anchors": ["extensions/select_optimization.cc:RewriterImpl,OptimizedSelectImpl,FallbackSelect,ApplyQualifier,CheckForMarkedAttributes", "extensions/protobuf/internal/qualify.cc:ProtoQualifyState", "common/values/parsed_message_value.cc:Qualify", "eval/eval/select_step.cc:SelectStep", "eval/eval/container_access_step.cc:LookupInContainer"]}
{"id": "C81", "title": "Unknown attributes are found alike with and without the select optimization", "statement": "When unknown attributes are tracked, a chain of selects and constant indices is unknown in the optimized evaluation exactly when it is in the plain one, as long as nothing goes wrong on the way; the plain evaluation reports the shortest marked attribute of the chain, the optimized one the attribute of the whole chain, which extends it. If no attribute of the chain is marked, neither is affected. Whatever goes wrong on the way, the optimized step is unknown only where the plain chain gives no value.", "quantifier": "all chains of any length, all lists of patterns with any wildcards, all operands and descriptors, both evaluators", "why_tests_cant": "Which of the prefixes of a chain matches first depends on all patterns, and the two evaluations check at different points of chains of any length.", "anchors": ["extensions/select_optimization.cc:CheckForMarkedAttributes,GetAttributeTrail,StackMachineImpl::Evaluate,RecursiveImpl::Evaluate", "eval/eval/select_step.cc:CheckForMarkedAttributes,SelectStep::Evaluate,DirectSelectStep::Evaluate", "eval/eval/container_access_step.cc:PerformLookup"]}
{"id": "C82", "title": "The planned program: every step once, in order, and jumps land on their targets", "statement": "Whatever the history of calls on the program builder — entering and exiting expressions, adding steps, looking at, replacing or extracting subplans, recursive or not, extracting subexpressions — flattening terminates; the program handed out for a planning script consists of the steps in the order they were added, each once, a recursive program counting as one step; looking at a subplan shows exactly the segment that node contributes and changes nothing; replacing, extracting or extending the plan of a node changes exactly the segment of that node, in the one program it is part of; extracting a subexpression moves its segment, whole, to the subprogram with the returned index; the size of a subexpression is the length of its code; and the jump offset between two elements of a subexpression is the distance between their places in the program.", "quantifier": "all histories of builder calls (any order, any nesting, any number), all nodes, all paths, all base and target positions, forward and backward", "why_tests_cant": "The heap of mutually referring subexpressions can be in any of unboundedly many shapes (partly flattened, partly recursive, partly detached) when an operation is applied.", "anchors": ["eval/compiler/flat_expr_builder_extensions.h:ProgramBuilder,ProgramBuilder::Subexpression,PlannerContext", "eval/compiler/flat_expr_builder_extensions.cc:Flatten,ComputeSize,CalculateOffset,ExtractChild,EnterSubexpression,ExitSubexpression,ExtractSubexpression,GetSubplan,ExtractSubplan,ReplaceSubplan,AddSubplanStep,MaybeReassignChildRecursiveProgram"]}
{"id": "C83", "title": "Rewriting an expression in place: order of the hooks, results, and no dangling pointers", "statement": "For every rewriter, AstRewrite does what the recursive description says: before a subexpression is visited the rewriter may replace it, then the children of what it left are rewritten one after the other in source order, then the rewriter may replace the result; every callback sees the expression as it is at that moment, and the traversal path is the chain of expressions from the root to the one being rewritten.  It ends exactly when that description does, in particular for every rewriter whose pre-visit rewrites make progress; it follows no dangling pointer however much the rewriter replaces; it returns whether any hook reported a change; when it returns false and the rewriter reports its changes the expression is unchanged (except that unset list elements and comprehension parts have been created as default expressions); and a rewriter that changes nothing sees exactly the calls AstTraverse makes.", "quantifier": "all expressions, all rewriters (arbitrary stateful functions that leave expressions), both comprehension callback modes", "why_tests_cant": "The rewriter is an arbitrary program changing the tree under the traversal's feet; trees are unbounded.", "anchors": ["common/ast_rewrite.cc:AstRewrite,PushDependencies,PreVisit,PostVisit", "common/ast_rewrite.h:AstRewriter,RewriteTraversalOptions"]}
{"id": "C84", "title": "Resolving references before planning", "statement": "For every expression without repeated ids, every reference map, container and set of registered functions, the reference-resolving pass of the planner (ReferenceResolverExtension, run through AstRewrite) ends and leaves exactly the expression the recursive specification says: a node the checker recorded as an integer constant (an identifier recorded as any constant) becomes the constant, an identifier or selection recorded as a variable of another name becomes that variable, a call without target becomes a call of the first of its names in the container, innermost namespace first, for which an overload with that number of arguments can be found, a call whose target only spells a name becomes the namespaced function if there is one, and everything else stays; a node recorded as a constant or renamed variable never serves as a namespace.  The warnings are exactly those of the specification in order and the pass fails exactly when warnings are errors and there is one, with the first.  If no function is registered under a name with the container's namespaces in front twice, the planner then plans exactly the overloads of that first name, lazy ones included (which C38 shows are not found without this pass).", "quantifier": "all expressions, reference maps, containers, function registries and both severities", "why_tests_cant": "Depends on every combination of reference map, container nesting, registered names and expression shape.", "anchors": ["eval/compiler/qualified_reference_resolver.cc:ReferenceResolver,BestOverloadMatch,OverloadExists,ResolveReferences", "eval/compiler/resolver.cc:FindOverloads,FindLazyOverloads,FullyQualifiedNames", "common/ast_rewrite.cc:AstRewrite", "runtime/internal/issue_collector.h:AddIssue"]}
{"id": "C85", "title": "Expression ids of a parsed expression are unique and located; macro copies are faithful", "statement": "Whatever macros are registered and whatever parser options are set, in every expression that parsing a text without errors produces the ids of all nodes, message fields and map entries are positive and pairwise different, each has a source position, which is the position of a token of the text, and only calls have an unset child. This holds although macros copy their target, drop arguments or return ids: any macro written with the factory that moves each of its inputs at most once keeps it, and the standard macros and cel.bind are such macros and never fail on the number of arguments they are registered for. MacroExprFactory::Copy gives an expression that is the original up to ids, with the next ids in source order, each at the position of the id it copies, except that it drops the second variable of two-variable comprehensions.", "quantifier": "all syntax trees, macro registries, macro programs, parser options and factory states", "why_tests_cant": "Uniqueness is an invariant over every nesting of macros, copies and erased ids; a test sees single expressions.", "anchors": ["parser/parser.cc:ParserMacroExprFactory,GlobalCallOrMacroImpl,ReceiverCallOrMacroImpl,ParserVisitor,ExpressionBalancer", "parser/macro_expr_factory.cc:MacroExprFactory::Copy", "parser/macro.cc:ExpandHasMacro,ExpandAllMacro,ExpandOptMapMacro", "extensions/bindings_ext.cc:bindings_macros"]}
{"id": "C86", "title": "Recorded macro calls give the source back", "statement": "When the parser is told to record macro calls, the parsed expression together with its macro calls reads as the text: reading every node that has a recorded call as that call, and every other node as itself, ends, meets no comprehension, and gives exactly what parsing the same text with no macros registered gives, up to ids. There is only one such reading. This holds for every nesting of macros, provided every expansion ends with a node it made; the standard macros and cel.bind do. A macro that gives back its target unchanged is recorded under a node that its own record contains, and then there is no reading at all: a reader that follows the macro calls, as the unparser does, never ends.", "quantifier": "all syntax trees, macro registries whose expansions end with a new node, macro programs and parser options", "why_tests_cant": "The record must survive every nesting of macros, arguments that are dropped, moved or copied, and erased ids; a test unparses single expressions.", "anchors": ["parser/parser.cc:AddMacroCall,BuildMacroCallArg,GlobalCallOrMacroImpl,ReceiverCallOrMacroImpl", "tools/cel_unparser.cc:Unparser::Visit"]}
{"id": "C87", "title": "Types survive conversion between checker, AST and environment configuration", "statement": "A type converted to a type specification and resolved again in a descriptor pool is the same type exactly if every message and enum in it is the pool's descriptor of that name and no opaque type has the name of one; a specification resolved to a type and converted back is the same specification exactly if nothing is left unset in it and no name stands for something else; after one conversion nothing changes any more. A type written in an environment configuration can always be turned into a specification and read back: what is read means the same type in every pool and is stable. The type an environment gives it is the one its specification resolves to, and it resolves exactly if every name is declared. A specification keeps its meaning when written to a configuration unless it has a function or error type, a CEL name used for something else or an opaque type without parameters; those do change.", "quantifier": "all types, type specifications, configured types and descriptor pools", "why_tests_cant": "The claims are about every nesting of types and every descriptor pool.", "anchors": ["common/type_spec_resolver.cc:ConvertTypeSpecToType,ConvertTypeToTypeSpec", "env/type_info.cc:TypeInfoToType,TypeInfoToTypeSpec,TypeSpecToTypeInfo,TypeNameToTypeKind", "common/type.cc:Type::Message,Type::Enum"]}
{"id": "C88", "title": "The order on legacy values is a strict weak order away from NaN and errors", "statement": "On legacy values with no NaN and no error anywhere inside, CelValueLessThan is a strict weak order (irreflexive, asymmetric, transitive, with transitive incomparability), CelValueCompare changes sign when its arguments are swapped, exactly one of less, equal and greater holds, and equal values compare the same way with everything. Two lists are equal exactly if they are elementwise, two maps exactly if they have the same keys with equal values – in whatever order the keys are listed –, values without elements exactly if they have one kind and one content; values of different kinds are ordered by kind. At NaN and at errors the order breaks: NaN is equal to two doubles that are not equal, and three errors can be less, less and equal in a circle.", "quantifier": "all legacy values of every nesting, and all triples of them", "why_tests_cant": "A comparator's laws are about every pair and triple of values; a set or sort that uses it misbehaves on one bad triple.", "anchors": ["eval/public/set_util.cc:CelValueCompare,CelValueLessThan,CelValueEqual,CelValueGreaterThan,ComparisonImpl,ComparisonVisitor"]}
{"id": "C89", "title": "Masks on message types show exactly what their paths go through", "statement": "Type masks given to a type checker builder are accepted exactly if each names a message type of the descriptor pool, every name on every path is a field of the message the names before it lead to, and no type is both hidden by a mask without paths and on a path of a mask. Then a field can be selected in a checked expression exactly if a type provider has it and either some path of some mask goes through it or no mask says anything about its type; neither the order nor the repetition of masks matters. A further mask takes away only fields of types no mask said anything about, and adds only fields on its own paths. The last name of a path shows all fields of its message only if no other path or mask reaches the same type.", "quantifier": "all descriptor pools, lists of masks, paths of every length, types and fields", "why_tests_cant": "The claims are about every set of paths through every descriptor pool, recursive message types included.", "anchors": ["checker/internal/proto_type_mask_registry.cc:ProtoTypeMaskRegistry::Create,ProtoTypeMaskRegistry::FieldIsVisible,ComputeVisibleFieldsMap,AddVisibleField,AddAllHiddenFields", "checker/internal/proto_type_mask.h:ProtoTypeMask", "checker/internal/type_check_env.cc:TypeCheckEnv::LookupStructField"]}
{"id": "C90", "title": "Legacy values survive being written as cel.expr.Value messages", "statement": "CelValueToValue succeeds exactly if the value has no unknown anywhere inside and every duration and timestamp in it is in the range of its protobuf message. ValueToCelValue reads what was written back as the same value, except that durations are cut towards zero and timestamps down to whole nanoseconds and that errors become the string CelValue::Type::kError; without these it loses nothing, and two different values are never written alike. A value read from any message, if it can be written, is written so that it reads back the same. Maps with two equal keys, or keys that are not bools, ints, uints or strings, are refused when read; an enum is read as its number.", "quantifier": "all legacy values and all Value messages of every nesting", "why_tests_cant": "The claim is about every value; a kind or range that is not covered shows only with a value that has it.", "anchors": ["eval/public/transform_utility.cc:CelValueToValue,ValueToCelValue", "internal/proto_time_encoding.cc:EncodeDuration,EncodeTime,DecodeDuration,DecodeTime", "eval/public/containers/container_backed_map_impl.cc:CreateContainerBackedMap,CelMapBuilder::Add"]}
{"id": "C91", "title": "The source range found for a YAML string of a policy", "statement": "For a string in double or single quotes the range is exactly what is between the quotes, escapes and doubled quotes included. For a plain string it starts at the given position, for a block after the header line and the blanks of the next line; it ends at the first place where all characters of the value other than space, tab and newline have been met in order, or at the end of the source if they are not there; without quotes an empty value has an empty range at the position. No position outside the source has a range; a range starts and ends within the source, except after an open double quote and a last backslash that escapes nothing, where the end is one too far.", "quantifier": "all sources, positions and values", "why_tests_cant": "The claim is about every text; a wrong end shows only with the escape, blank or cut-off text that is not covered.", "anchors": ["policy/internal/yaml_string_element_scanner.cc:ScanYamlStringElement,ScanDoubleQuotedExpression,ScanSingleQuotedExpression,ScanPlainOrBlockExpression"]}
{"id": "C92", "title": "The printed name of a type", "statement": "Printing a type always ends, whatever its nesting, and gives its name followed by the printed names of its parameters in brackets with commas between, or only the name if it has no parameters. If every name is used for one thing only (a struct, an opaque type or a type parameter, and none of the names of the language) and has no bracket or comma, two types with the same text are the same, except that an enum reads as int and a function type as an error.", "quantifier": "all types of every nesting and number of parameters", "why_tests_cant": "The claim is about every nesting; a record pushed in the wrong order shows only with a type that needs it, and distinctness is about all pairs.", "anchors": ["checker/internal/format_type_name.cc:FormatTypeName,FormatImpl"]}
{"id": "C93", "title": "The field paths extracted from an expression", "statement": "ExtractFieldPaths returns exactly the longest chains of selected fields that start at an identifier, except identifiers with the name of a variable of a comprehension around them. Every one is the path of a free variable; if no comprehension uses the name of one of its variables where that variable is not in scope (in its range or initial value, or an iteration variable in its result), the paths of all free variables are returned. Otherwise some may be missing: for x.map(x, x.y) nothing is returned, although the first x is free.", "quantifier": "all expressions of every nesting", "why_tests_cant": "The claim is about every expression; a path lost or mixed up with a neighbour's shows only with the nesting that does it.", "anchors": ["tools/cel_field_extractor.cc:ExtractFieldPaths,IsComprehensionDefinedField"]}
{"id": "C94", "title": "Extension libraries by name and version", "statement": "After any history of registrations, a version gives the library that was first registered for this version under the name, or under an alias equal to it; the latest version gives the one first registered for the greatest of its versions, negative ones left out. A version is found exactly if it was registered, the latest exactly if some version that is not negative was. What a version gives does not change by further registrations. The same holds of the functions the runtime registers.", "quantifier": "all histories of registrations, names and versions", "why_tests_cant": "The claim is about every history; an alias, a repeated registration or a greatest version registered first shows only with the history that has it.", "anchors": ["env/internal/ext_registry.cc:GetCompilerLibrary,RegisterCompilerLibrary", "env/internal/runtime_ext_registry.cc:RegisterExtensionFunctions,AddFunctionRegistration"]}
{"id": "C95", "title": "Line and column of an expression in the legacy API", "statement": "If the line offsets of a SourceInfo are the first positions of the lines, SourcePosition gives the line and column, counted from 1, of the position recorded for the expression. With the line offsets that the parser of this project writes (behind each newline, and one behind the end) the column is right and the line is one too small in every line but the first. Without source information the offset is 0 and line and column are 1; an expression without a position has offset 0.", "quantifier": "all texts, positions in them and expression ids", "why_tests_cant": "The claim is about every text and position; a line counted wrongly at a newline shows only with a position there.", "anchors": ["eval/public/source_position.cc:SourcePosition::line,SourcePosition::column,SourcePosition::character_offset,GetLineAndLineOffset"]}
