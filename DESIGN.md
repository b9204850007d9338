# Formal model of google/cel-cpp in Lean 4

## Approach

The code in `/repo` is read as text and transcribed, function by function, into
small total Lean functions under `lean/Verif/`.  For each area there are up to three kinds of file:

* `Verif/<Area>/Model.lean` – the transcription; every definition cites file and lines.
* `Verif/<Area>/Spec.lean`  – a small independent specification (mathematical integers,
  reals/dyadics, lists, ...), not mentioning the model's helpers.
* `Verif/<Area>/Lemmas.lean` – helper lemmas.
* `Verif/<Area>/Props.lean` – the property theorems, each with a non-vacuity `example`.

Undefined behaviour of C++ (signed overflow, division by zero, out-of-range
float-to-int cast, out-of-range vector index, `vector::reserve` of a negative size) is a *distinct outcome*
of the model, never assumed away.

When a property is false of the code, the negation is proved with a concrete
witness and the true part is proved under the suffix `_partial`.

## Trusted base

* Lean 4.33.0's kernel; axioms used by the theorems: at most `propext`,
  `Quot.sound`, `Classical.choice` (checked by `vcheck`).
* The reading of the C++ source: the model is a transcription by hand; nothing was
  executed against the C++ code.
* Modelled third-party behaviour (abseil, protobuf, C++ library) – listed per area below.
* IEEE-754 binary64 is modelled by our own definition (`Verif/Num/Double.lean`),
  not by Lean's opaque `Float`.

## Plan per property

| id | what is modelled, how it is proved |
|----|------------------------------------|
| C01,C02,C03 | `Checked*` on `Int`/`Nat` in range; the builtin overflow predicates as "result out of range"; exactness against mathematical `Int` by `omega`/`nlinarith`-style lemmas; `Int.tdiv/tmod` for C++ division. |
| C04 | the `#else` guards transcribed with a C++-expression semantics in which an intermediate signed overflow is UB; equivalence with the builtin path. |
| C05 | double model (NaN, ±inf, dyadic finite); cast of out-of-range is UB; shown unreachable; result = truncation. |
| C06 | range checks, round trips. |
| C07 | durations as (±inf or integer quarter-nanosecond ticks), `ToInt64Nanoseconds` saturating; exactness inside range; counterexample outside. |
| C08,C09 | timestamps as instants in ticks; code's split/carry transcribed; exactness against ticks addition. C09 has a spurious-overflow counterexample. |
| C10,C11,C12 | `Number` variant over int64/uint64/double with the visitor code transcribed, rounding int→double round-to-nearest-even; spec is the order on rationals. |
| C13–C16 | tables `kLeading`/`kAccept` transcribed; spec is an inductive definition of UTF-8 by scalar values (Unicode 15, table 3-7 is *derived*, not assumed). Induction over byte lists; Cord reader as a state machine over chunks with a simulation to the flat reader. |
| C17–C19 | unescape/escape transcribed over byte lists; induction over the string. |
| C20,C25 | the step functions transcribed; case analysis over values with arbitrary payloads. |
| C21,C22,C24 | flat program, stack machine with pc, jump offsets computed as in the builder; compiler correctness by structural induction with code embedded in a larger program. |
| C23 | direct evaluator transcribed separately (with its destination aliasing); equality with the stack machine on the class where it is true; counterexample otherwise. |
| C26 | macro expansions transcribed to comprehension nodes; fold lemmas. |
| C27 | counter in the frame; invariant over execution. |
| C28,C29 | slots and index manager; refinement to environments. |
| C30,C31,C32 | attributes as (variable, qualifier list); order laws; prefix matching. |
| C33 | overload resolution transcribed with arbitrary kinds. |
| C34,C35 | value type (nested lists/maps), equality transcribed; structural induction. |
| C36,C37 | types, substitution maps; acyclicity invariant (well-founded rank). |
| C38 | candidate generation as list of strings; order spec. |
| C39 | balanced tree recursion; in-order traversal, depth bound. |
| C40,C41 | list functions over the value model. |
| C42 | line offsets; round trip. |
| C43,C44 | registry/activation as state machines; invariants over histories. |
| C45,C46 | arithmetic/bit and code point list functions. |
| C47,C48 | construction steps and select step over the value model. |
| C49 | literal grammar as a relation; decoder complete and sound. |
| C50 | optimizer transcribed with its stack of flags; outcome of constant subexpressions shown independent of activation, patterns and state; equality of meanings and of machine outcomes. |
| C51 | the two counters as int32 words, every atomic operation one step, any number of threads; inductive invariant relating counters to the handles and half-finished calls of all threads. |
| C52 | heap of blocks (released/counted/arena/external), representation with tagged owner word, every operation transcribed; invariant counts handles per block; refinement to plain byte lists. |
| C53 | loop over occurrences of the first chunk, specification "first position"; partial: the empty needle at the end of a cord is not found (witness). |
| C54 | token-level parser (partial fixpoint over the grammar's rules) and printer; every printed piece shown to be read back by its grammar rule whatever follows; induction over expressions; partial: wrong texts found (witnesses). |
| C55 | rules, composer and `cel.@block` evaluation; first-match semantics written directly on rules; mutual induction over rules, matches and productions, with an invariant relating scopes and slot values to the environment. |
| C56 | the two passes of `Unnester`; induction over expressions: a cut piece evaluates in the slots before it as in place, because indices are in range and nothing under a comprehension is cut. |
| C57 | heights of the sliced pieces; bound proved for expressions in which every node has at most one tall child (partial); in general false: for every limit and margin a policy that exceeds it. |
| C58 | writer, escaper, scanner and parser of `common/signature.cc`; "text the scanner passes over" as a predicate closed under concatenation and brackets, then induction over types; canonical forms by induction over the parser. |
| C59 | `FunctionDecl` as overload list and two index maps; invariant over all call histories; order independence through a pairwise characterisation; ambiguity proved absent for rigid parameter types and present otherwise (partial). |
| C60 | the visitor of `checker/internal/type_checker_impl.cc` over the inference of `Verif/Checker`, the planner from checked tree to `Verif/Eval`; typing relation for values; the finished type map satisfies local typing rules (monotonicity of substitutions, renaming of type variables), then induction over evaluation; run-time dispatch separately (partial: no containers, `?.`, optional entries, `cel.@block`). |
| C61 | the two conversion loops of `common/ast/expr_proto.cc` as stack machines whose frames hold addresses into a memory with storage generations (a reallocated vector makes its old addresses dangle); big-step characterisation, then structural round trips; `constant_proto.cc`, `source_info_proto.cc`, `ast_proto.cc` as functions of what the output holds. |
| C62 | `CopyNode`/`CloneImpl` on the same machine; `operator==`; `FlattenedErase` with its intrusive list as a pointer map, loop invariants level by level. |
| C63 | the explicit stack of `common/ast_traverse.cc` (records hold references into the expression or to the shared default instance) run by fuel; a big-step run lemma by structural induction gives the recursive trace; positions of the visited nodes then related to addresses. |
| C64 | the builder callbacks of `common/navigable_ast.cc` folded over the trace; rows characterised by a recursive table, slices by preorder positions. Wrong for `DescendantsPostorder` below the root and for relations in maps with unset keys (witnesses). |
| C65 | the validators of `validator/*.cc` as loops over the navigable AST; a relation `Occ` ("part of the expression below these nodes") connected to rows and paths; then each loop against its specification. RE2, `absl::ParseTime`, `absl::ParseDuration` are arbitrary functions, shared with the evaluator's conversions. |
| C66 | `string.format` (`extensions/formatting.cc`) over byte strings; grammar `Template` and relation `Render` as specification, the loop proved equivalent by induction over the template; numerals by uniqueness of readings; map texts by the sorted-insertion invariant. Partial: key-text collisions (witness). |
| C67 | date/time accessors of `runtime/standard/time_functions.cc`: `absl::TimeZone::At` as civil-day arithmetic, specification `Shown` (calendar counted day by day from 1970-01-01); zones as arbitrary offset functions, fixed offsets through the modelled `absl::ParseDuration`. |
| C68 | conversions of `runtime/standard/type_conversion_functions.cc` with `SimpleAtoi` and `ParseDuration` modelled digit by digit; round trips and uniqueness of texts. `absl::ParseTime` by its contract on RFC 3339 texts; string(double) and double(string) not modelled. |
| C69 | every function of `runtime/optional_types.cc` with the call dispatch of `function_step.cc`; each optional access is related to the plain access (`m[k]`, `k in m`, `l[i]`, `has`) of the step model. Messages are arbitrary field readers. |
| C70 | the recursive, the exhaustive and the iterative implementation of `eval/eval/optional_or_step.cc` over arbitrary operands (host-state transformers); agreement on values and effects, laws. Agreement on attributes is false for the stack machine (witness). |
| C71 | `transformMap`/`transformMapEntry` expansions over the comprehension semantics, `cel.@mapInsert` with both of its paths; a separate relation `Collects` says what collecting entries gives; loop invariants. |
| C72 | a heap of mutable lists and maps, the in-place versions of the loops and of the ternary around them (short-circuiting and exhaustive); simulation with the unoptimised loops. False when short-circuiting is off, for errors under partially unknown attributes, and when the accumulator can be named (witnesses). |
| C73 | the reference count on an AST, an evaluator over any domain of values whose operators satisfy size inequalities; linear growth by induction on the step and on the elements; acceptance of all macro expansions by induction on source expressions. False in general: nested loops, arguments of functions, map keys (witnesses that pass and double). |
| C74 | RE2 as an oracle `find text startpos`, the loops of the extensions as written, a relational scan as specification; induction on what is left of the target. False for expressions that look behind (`^`, `\b`) or match the empty string (witnesses), and for captures whose name is another group's number. |
| C75 | the pass on source expressions with its cache of programs; agreement by a refinement relation between evaluations (an instrumented program that is undefined on bad subjects), planning failures characterised exactly. False for errors and unknowns in stack plans, for subjects of other kinds, for partially unknown subjects, and for host functions in unchecked expressions (witnesses). |
| C76 | conversion into a message with contents, reading back; induction on values and on JSON; equality is that of C34 |
| C77 | the JSON comparison and container functions against the model of native values (C34, C35); induction on JSON messages |
| C78 | messages as trees of set fields; the conversion with its slots (InsertField, MutableStructValue find what is there); mutual structural induction against a JSON form defined without slots; injectivity by induction on pairs of messages of one type |
| C79 | operands with their field types; CoalesceMapKey, the category filter, the unpacking of Any and the four mirrored copies of FieldEquals; proved against the value equality of C34/C48 through a denotation `val` that knows nothing of fields; the filter is shown to reject only unequal or empty operands |
| C80 | the rewriter (candidates, roots, paths), Qualify with its state, the fallback and the plain steps, over messages with any descriptors; simulation of the path, extended at its end along the expression, against the plain evaluation |
| C81 | both plain steps with trails (stack machine and recursive), the single check of the optimized step; induction over the chain with the pattern lemmas of C31 |
| C82 | the heap of subexpressions with all operations and the explicit-stack loops; refinement to a forest of trees kept by every operation, local updates by contexts |
| C83 | explicit-stack machine over addresses of a mutable tree, arbitrary rewriter; equivalence with a big-step relation in both directions, liveness invariant for the stack |
| C84 | resolver hooks run on the C83 machine, looked-up names from C38 and the registry of C43; induction over the rewriting relation against a recursive specification without state |
| C85 | factory state, `Copy`, macros as programs over move-once registers, visitor over an error-free syntax tree; one ownership invariant (owned ids distinct, below the counter, located) carried through every step for any frame |
| C86 | the model of C85; `Reads` is an independent inductive reader of an expression with macro calls; induction over the visit, relating it to the visit without macros; growth of counter and record; the balancer relates its operands |
| C87 | the five conversions as functions on three inductive types; settled types, plain and sayable specifications and declared configurations as independent inductive predicates; equivalences by mutual induction |
| C88 | the comparison as a structural recursion on an inductive type of values (maps sorted by key first); the laws at one value, closed under lexicographic products and lists, by mutual induction |
| C89 | the loops over masks, paths and names as folds on a map from types to visible fields; the specification (paths that lead, fields a path goes through) as inductive predicates over any pool; the map is shown to represent it by induction |
| C90 | the two functions on inductive types of values and messages; ranges, maps and what is cut as independent inductive predicates; mutual induction |
| C91 | the four functions on lists of code points; the grammars of quoted texts as inductive predicates, the end of others as the shortest prefix with a subsequence; induction on the text |
| C92 | the explicit stack with its offsets as a machine on an inductive type of types; the text as an inductive relation between a type and its name and parameters; induction on the type, and on the text for distinctness |
| C93 | the loop as a fold over the preorder nodes with the comprehensions above; chains, uses and free paths as inductive relations; mutual induction on the expression |
| C94 | the two loops on a list of entries; the first registration and the greatest version stated on the history of calls; induction on the history |
| C95 | the loop over the line offsets; line and column stated on the text (what is before the position, split behind its last newline); induction on the text |

## What is modelled, area by area

### Numbers and time (`Verif/Num`)
`internal/overflow.cc`, `internal/number.h`, `runtime/standard/{arithmetic,comparison,type_conversion,time}_functions.cc`
as cited per definition. binary64 is our own model (sign, dyadic rationals, infinities, NaN); its
`ofInt` rounding is round-to-nearest-even. Abseil's `Duration`/`Time` are modelled by
quarter-nanosecond ticks with the two infinities. Not modelled: text forms of doubles, time zones.

### Text (`Verif/Text`)
`internal/utf8.cc` (flat and Cord readers), `internal/strings.cc` (escape, unescape, format
literals), `internal/lexis.cc`, numeric literal parsing in `parser/parser.cc`. A Cord is a list of
chunks. Not modelled: the ANTLR lexer that cuts the literal out of the source text.

### Evaluation (`Verif/Eval`)
* Values (`Value.lean`): null, bool, int, uint, double, string, bytes, duration, timestamp, type, list,
  map, optional, struct, error, unknown. Lists and maps are association lists in insertion order.
  A protobuf message is a name plus an opaque payload, and its fields are reached through functions
  of the step configuration, over which the theorems quantify.
* Attributes, patterns, trails, unknown sets (`base/attribute*.{h,cc}`, `eval/eval/attribute_*.{h,cc}`).
* Logic steps, ternary, `@not_strictly_false` (`eval/eval/logic_step.cc`, `ternary_step.cc`,
  `runtime/standard/logical_functions.cc`), both forms.
* Call dispatch (`eval/eval/function_step.cc`, `runtime/internal/…`, `runtime/function_registry.cc` lookup part).
* The flat plan: builder for const, ident, call-like, logic, ternary, comprehension and bind nodes with
  the code's jump offsets and slot allocation (`eval/compiler/flat_expr_builder.cc`), and the stack
  machine (`eval/eval/evaluator_core.cc`, `comprehension_step.cc`, `jump_step.cc`,
  `lazy_init_step.cc`). Operations are arbitrary functions of operands and an external state σ, so
  theorems hold for all user functions, including stateful ones.
* Not modelled: `cel.@block`, the mutable list optimisation for `map`/`filter` macros, plan extensions
  (constant folding, select optimisation), tracing listeners, arenas.

### Data (`Verif/Data`)
`runtime/internal/…`/`eval/eval/equality_steps.cc` (`==`, `in`), `common/values/*` equality and map
lookup, `eval/eval/container_access_step.cc`, `select_step.cc`, `create_list_step.cc`,
`create_map_step.cc`, `common/values/value_builder.cc`.  The result of the code's hash tables is
modelled by an association list in insertion order; theorem statements about maps never depend on the
order (`C34_map_equality_order_insensitive`).  Not modelled: the pointer-identity
shortcuts of message equality; message contents.

### Macros (`Verif/Macro`)
`Macros` transcribes the expanders of parser/macro.cc and extensions/comprehensions_v2_macros.cc for `all`, `exists`,
`exists_one`, `map` (2 and 3 arguments), `filter`, one and two iteration variables, and
parser/options' `optMap`/`optFlatMap` (parser/macro.cc). `Scope` proves that meaning depends only on free variables. Each macro is
related to a specification over the list of items written without the comprehension machinery. Not modelled:
`transformMap`/`transformMapEntry`, and the planner's in-place list-append optimisation for `map`/`filter`
(eval/compiler/flat_expr_builder.cc list append), which builds the same list in a mutable accumulator.
`ShortCircuit*.lean` relates the program planned with short-circuiting to the exhaustive one (value and host-call trace);
`Alpha.lean` proves free-variable dependence and renaming for every binder; `OwnSlots.lean` bounds the slots a
planned expression and a single machine step may write; `Bind.lean` proves `cel.bind` lazy and evaluated at most once
(a counter in the host), and equal to substitution when steps have no effects.

### Parser helpers (`Verif/Parser`)
The balancer of `&&`/`||` chains (parser/parser.cc): shape, order, depth and meaning of the balanced tree, and the
variadic form as a left chain. Not modelled: the ANTLR grammar.

### Source positions (`Verif/Source`)
`common/source.cc`: line offsets, `GetLocation`, `GetPosition`, display locations. int32 arithmetic is checked: an overflow is `ub`.

### Names (`Verif/Names`)
Container and alias resolution: `checker/internal/…`/`eval/compiler/resolver.cc` candidate generation and lookup.

### Runtime (`Verif/Runtime`)
`Registry.lean`: function descriptors, registration, lookup, lazily bound functions and overload choice. `Activation.lean`:
variables of an activation as a transition system with any number of threads, the mutex and re-entrant providers; insertions only
while no lookup runs (the class is thread-compatible), other steps interleave freely. The accesses between taking and
releasing the mutex are separate steps.

### Checker (`Verif/Checker`)
`Model.lean`: all of checker/internal/type_inference_context.{h,cc} (instantiation, assignability with prospective bindings and
widening, generality, occurs check, overload resolution, full substitution, assignability contexts). Recursion carries fuel in the
model; `Termination.lean` proves that some fuel is always enough, so the fuel bounds nothing. `Sound.lean` relates checks to the
relation `Fits`; histories there (`Built`) hand the context only types as the checker builds them over variables it has instantiated.
A flag that the code does not have records whether a binding was widened. `type_checker_impl.cc` (the walk over the AST) is not modelled.

### Recursive planning (`Verif/Direct`)
`Model.lean` transcribes the direct steps (direct_expression_step.h, const/ident/lazy_init/select/container_access/equality/
function/create_list/create_map/logic/ternary/comprehension steps) with the references each step hands to its operands: a step
may leave a stale attribute trail in its caller's reference, and a loop step writes straight into the accumulator's slot.
`planD` is the planner's tree with its slot numbers, `peak` the depth it compares with the limit. `Agree.lean` relates it to the
meaning (hence, by C22, to the stack machine). `aliasSafe` is a computable check that no loop step reads the accumulator after
its destination was written. Not modelled: struct creation, `optional.or`/`orValue` steps, `cel.@block`, the in-place append
optimisation of comprehensions, and mixed plans (a `cel.@block` whose body is deeper than the limit falls back to an iterative step).

### Constant folding (`Verif/Fold`)
`Model.lean` transcribes constant_folding.cc: the flag stack, the classification of nodes, the evaluation with an empty activation.
It works on expressions instead of the part of the program planned for a node (`fold_runs_the_plan` connects them). Proved by showing
that a constant subexpression has no attribute trail, so no pattern applies to it and its outcome is one `Res Value` for all states.

### Memory (`Verif/Mem`)
`RefCount` transcribes reference_count.h:270-390: strong and weak 32-bit counters, one step per atomic operation, a step for each half of a call (decrement, finalize, weak decrement, delete; load and compare-exchange of StrengthenRef with spurious failure). A state is the block and the list of threads with the handles they hold; C51's theorems are about every reachable state of every number of threads. Assumption: the number of live handles fits int32 (`C51_needs_bounded_handles` shows what happens otherwise). Not modelled: memory orders (steps are sequentially consistent; on one counter acquire/release gives the same order of modifications).

`ByteString` transcribes byte_string.cc: small/medium/large, owner word with tag bits (addresses are multiples of 8), Construct, CopyFrom, MoveFrom, Swap, Destroy, Substring, RemovePrefix/Suffix, ToCord, Concat, Clone, Borrowed, FromExternal. Undefined behaviour is `none`. `ByteStringSpec` is the specification: a history of operations on variables, and what plain byte lists would hold. `absl::Cord` is a list of chunks. Preconditions of a history (`Allowed`, `AllowedHere`): variables are within their lifetime, a moved-from string is only assigned to, swapped or destroyed, cut positions are in range, an arena is destroyed only when no string is on it. `ByteStringFind` adds Find; `string_view::find` and `Cord::Find` themselves are taken to be first-occurrence searches. Not modelled: hashing, printing, Compare/Equals (they delegate to the views), LegacyByteString.

### Extensions (`Verif/Ext`)
`Sets.lean`: extensions/sets_functions.cc (`contains`, `intersects`, `equivalent`) over the value model. `Lists.lean`:
extensions/lists_functions.cc (`distinct`, `flatten`, `range`, `reverse`, `slice`, `sort`, and `@sortByAssociatedKeys`; `sort` is
specified by the permutation it may return, since std::sort is not stable). `Math.lean`: extensions/math_ext.cc and
math_ext_macros.cc (bit operations, shifts, abs/sign, rounding, NaN/infinity tests, `least`/`greatest` with every form of
argument). `StringsModel.lean`/`Strings.lean`/
`StringsSplit.lean`: every function of extensions/strings.cc but `format` (see `Verif/Format`), with the StringValue methods behind them in both copies
(flat and Cord), including `ByteString::Find` with a needle in several chunks; the theorems are about lists of Unicode scalar values and
hold for every division into chunks. Strings have fewer than 2^63-2 bytes. Not modelled: the
expansion of the `sortBy` macro, `math.sqrt`, the argument checks the `math.least` macro makes on
literals while parsing.

### Syntax (`Verif/Syntax`)
The unparser (`tools/cel_unparser.cc`, `common/operators.cc`) as a function from expressions to tokens, and the
parser (`parser/internal/Cel.g4` with the visitors of `parser/parser.cc` and the standard macros of
`parser/macro.cc`) as recursive descent over tokens, defined as a partial fixed point. `Spec` has the expressions
covered (`Good`) and `norm`, which gives chains of `&&`/`||` the tree the parser's balancer gives them. Simplified: text
is already cut into tokens (spacing, escapes of strings — see C49 — and digits are not in this part; the token that a double's
text becomes is a parameter), ANTLR's prediction is taken to be "longest repetition, first alternative", expressions
have no ids, `macro_calls` is empty, errors are one value, no error recovery and no limits.

### Policies (`Verif/Policy`)
Modelled: policy/compiler.cc from the duplicate check of `CompileRule` to `CompilePolicy`: `IsTriviallyTrueCondition`,
`IsExhaustive`, `CheckMatchStructure`, `ResolvePolicyVariable`, `MapVariables`, `ComposeRuleVariables`, `ComposeRule`,
`ComposeProduction`, `Compose`, `Unnester::Slice` (both passes) and `Cleanup`; node heights as in common/navigable_ast.cc;
the meaning of `_?_:_`, `optional.of`, `optional.none`, `or`, `orValue` and of block slots. Every other function is an
arbitrary function of the argument values (errors included). Not modelled: parsing and checking of the embedded
expressions, output-type compatibility, the type check of the composed expression, ids and source positions, explanations.

### Signatures and declarations (`Verif/Sig`)
`common/signature.cc` in full, on type specs (`MakeTypeSignature` and `ParseType` only add the conversion to and from `cel::Type`;
the conversion to type specs is modelled, the one back, which needs a descriptor pool, is not). `Model` is the code, `Spec` the
English side (ordinary names, normal form), `Flow`/`RoundTrip`/`Props`/`Main`/`Canon` the proofs. The recursion bound of the parser is proved
irrelevant (`parseType_unfold`). `Decl`/`DeclProps`: `FunctionDecl` of `common/decl.{h,cc}` over the types of `Verif/Checker`;
hash maps are functions, result types and moves are dropped.

### C60 (`Verif/Types`)

`Model` has the expression tree, the checker's visitor (`infer`), the final substitution (`finalize`, `check`) and the planner (`plan`, to the
expressions of `Verif/Eval`, with the container steps of `Verif/Data`). `Spec` says what values belong to a type (`HasType`), what an
evaluation may give (`Fine`), which types are not dynamic (`Strict`), what runtimes keep to their declarations (`Conforms`) and which
expressions are like those macros write (`Regular`). `Clean`, `Alike`, `Rename`, `Mono` are facts about inference: what later checks
commit never changes what earlier ones found, once no dynamic type is involved; types are compared up to the arguments of `type(…)`, which
the checker ignores. `Infer1`-`Infer5` show that the finished type map satisfies local rules (`check_ok`); `Steps` and `Sound` evaluate. `Link`
reduces the hypothesis on functions to their implementations (`C60_dispatch`, `link_funcs`). `Decide` has sound boolean tests of
the hypotheses, and `Examples` puts a program through them and shows that each exception is needed. Simplified: one scope for qualified names
(C38 has those); error recovery after the first issue; fuel for inference (C36 shows enough exists); the recursive
planner and the optimizers (C23, C50).

### Protos, copies, destruction (`Verif/Proto`)
`Machine` is the loop all three converters share: a stack of (source node, address of a target node). An address is a path with the
storage generation of every step; `std::vector` growth (`Vec`) bumps the generation, and reading through an outdated address is
undefined behaviour. `run_big` relates the loop to a big-step semantics, `Slots` to structural recursion. `Expr` has the node types,
constants and the three step functions (`ExprToProtoImpl`, `ExprFromProtoImpl`, `CopyNode`) case by case; `Fold` proves that each loop
computes a structural function from any target (`toP_done`, `fromP_done`) or a fresh one (`copy_done`); `Round`, `Back`, `Types`,
`Ast` are the round trips, including hash maps as association lists and output messages that are not cleared. Doubles are bit
patterns; `==` on them is IEEE. Strings are not UTF-8 checked; proto unknown fields, arenas and presence of empty sub-messages
(`has_expr()` on `ParsedExpr`) are not modelled. `Erase` is `FlattenedErase` with `u_.next` as a function on addresses.

### Traversal and navigable ASTs (`Verif/Walk`)
`common/ast_traverse.cc` (`AstTraverse`, `AstTraversal`), `common/navigable_ast.cc` with the ranges of
`common/ast/navigable_ast_internal.h`. Expressions are the trees of `Verif/Proto`; a reference is an address in the tree or the
shared default expression that accessors return for unset children. The visitor is represented by the sequence of calls it gets.

### Conversions, calendar and formatting (`Verif/Conv`, `Verif/Format`)
`Conv`: numerals and their reading (`Numeral`), the calendar (`Civil`), `internal/time.cc` and `absl::ParseDuration` (`Duration`,
`DurationBack`), accessors and time zones (`Clock`, `ClockProps`), conversions (`Convert`, `ConvertProps`, `TsText`).
`Format`: `extensions/formatting.cc`, whole file. Printing of doubles is the contract of the library (correct rounding). Error
messages leave out embedded type names. Time-zone database: an arbitrary function from names to offset functions.

## Optional values (C69, C70)

`Verif/Opt/Model.lean` models `runtime/optional_types.cc` function by function and registers the
functions as call sites; `Verif/Opt/Props.lean` proves the properties. Operands of `or`/`orValue` are
arbitrary functions from the host state to a result and a new host state; the operands of the recursive
step are taken not to read the result references they are given, and the operands of the stack machine
are taken to push one value each (C20).

## Map comprehensions and in-place accumulators (C71, C72)

`Verif/Macro/MapMacros.lean` models the four expansions in `extensions/comprehensions_v2_macros.cc` and
`cel.@mapInsert`; `MapMacroProps.lean` proves C71 over `pden` (the effect-free reading of planned programs, see
C26).  The specification is `Collects`: entries, in order, become the map that holds them, or the error of the
first unsupported or repeated key.  Iteration order of maps is insertion order, as elsewhere.
`Verif/Macro/InPlace.lean` gives the optimised programs: runtime values are ordinary values or references into a
heap, `#list_append` and `cel.@mapInsert` write to the referenced object, and `Denotes` reads a runtime
value back.  The element expressions are given by their values (`valueAt`), which is exactly what hygiene
(the accumulator is not mentioned) provides; `C72_accumulator_alias` shows what happens without it.  Not
modelled: the planner's pattern match on hand-made ASTs (`IsOptimizable*` is documented as unsafe for those:
a non-empty map literal initialising the accumulator would be silently replaced by an empty map).

## Comprehension vulnerability check (C73, `Verif/Growth`)

`Model.lean` has the AST without ids, `refs` (`ComprehensionAccumulationReferences`) and the check on every node; the
evaluator is over an abstract `Dom` whose fields say that no operator returns more than its operands together plus a
constant (errors and unknowns count as constants); `Witness.lean` gives CEL values as an instance.  Sizes count a value
each time it occurs, as printing or comparing does; sharing between parts of a value is not modelled.

## Regular expression extensions (C74, `Verif/Regex`)

`Model.lean` has the loops of `ExtractAll`, `ReplaceN` and `CaptureStringN` over an oracle for `RE2::Match`, and
`RE2::GlobalReplace` as its library contract.  The specification `Scan` searches one text throughout; the code searches
the remaining suffix as a text of its own.  Compilation of patterns, `CheckRE2` and `RE2::Rewrite` are inputs.

## Precompiled patterns (C75, `Verif/Regex/Precompile*`)

`Precompile.lean` has the standard `matches`, the pass (`IsFunctionOverload`, constant pattern, program cache, rewriting)
and the two steps.  The other steps are those of `Verif/Direct/Model.lean`; a recursive plan is represented by the
meaning of the expression with the direct step in place of the call (C23 relates the two evaluators on everything else).
Not modelled: that an earlier optimizer may have modified the call's plan; the attribute trail left by the direct step.

## JSON values (C76, C77, `Verif/Json/*`)

`Model.lean` has `google.protobuf.Value` messages as data (with the unset kind), `ConvertToJson` for all kinds of values
(it writes into a message that may hold something), `ParsedJsonValue`, `JsonEquals`, and find/has/get/contains of JSON-backed
lists and maps.  From libraries: Base64 and the texts of durations and timestamps (parameters), maps of protobuf have distinct
keys.  Not modelled here: dynamic versus generated JSON messages (the two accessors do the same), legacy values, messages
(a parameter; see C78).

## The JSON form of messages (C78, `Verif/Json/Message*.lean`)

`Message.lean` models `MessageToJsonState` on messages given by what `ListFields` shows: set fields with their JSON names,
scalars of every type, nested messages, repeated and map fields, and the well-known types with a JSON form of their own
(wrappers, `Any` with its unpacking loop, field masks, durations, timestamps, JSON messages).  Writing follows the code: `InsertField`
and `MutableStructValue`/`MutableListValue` return what the target already holds.  `MessageSpec.lean` has the JSON form without
targets (`render`), the messages that have one (`Convertible`), those JSON tells apart (`Faithful`) and `Lossless`, what is assumed
of Base64 and `TimeUtil::ToString` for injectivity (`sampleLib_lossless`: it can be met).  Trusted: JSON names of the fields of a
message differ (protobuf refuses other proto3 files; proto2 files may only get a warning), none is `@type`; map keys are
distinct.  Not modelled: the order of map iteration, failing to serialize, partially written targets after an error.

## Equality of message fields (C79, `Verif/MsgEq/*.lean`)

`Model.lean` models `internal/message_equality.cc`: the key coalescing, the category bits, conversion to `EquatableValue`, unpacking of
`Any` (recursively, unresolvable ones stay opaque), repeated, map and singular comparison, and the comparison of fields with
messages.  `Spec.lean` gives the CEL value an operand denotes (`val`), which operands exist (`WF`) and which hide no error
(`Sound`).  The theorems relate `fieldEquals` to `valueEqual` (`==`) and `cEqual` (`Value::Equal`) of the values.  Simplified: a message
that is no well-known type is its name and a token for its equivalence class under `MessageDifferencer::Equals`, which is not
modelled; the text of the errors has no number; the four copies of the code that looks into the other operand are one function with
the comparison as parameter.

## Select optimization (C80, `Verif/Select/*.lean`)

`Model.lean` models the AST rewriter of `extensions/select_optimization.cc` (pre-visit candidates, erased candidates, paths), the
optimized step (`Qualify` of parsed messages with the state of `ProtoQualifyState`, the count of used qualifiers, the fallback), and the
plain select and index steps.  `Spec.lean` says when two outcomes agree and the conditions `Fine` under which they must; `Theorem.lean`
proves it; `Defects.lean` shows that the conditions on values are needed.  Simplified: values other than messages, containers, booleans and
null are opaque; conversion of well-known messages is a parameter; wrappers, durations and timestamps are assumed to convert to
scalars; unknown values and optional values are not modelled here; other operations are an arbitrary function of the outcomes of their
arguments that does not look at which error it is given.

## Unknown attributes along chains (C81, `Verif/Select/Marks.lean`)

The select step of both evaluators and the index step with their trails and checks in the order of the code, and the one check of the
optimized step.  Patterns and matching are the model of C31.  Values are those of C80.  Simplified: attribute sets have one attribute here
(the accumulator only merges sets of operands, C32); keys are constants; optional values are not modelled.

## Program builder (C82, `Verif/Builder`)

`Model.lean` keeps `subprogram_map_` as a heap of nodes that refer to each other by key, with the three alternatives of `program_`, the
parent pointers, root, insertion point and extracted list, and every public operation of `ProgramBuilder`, `Subexpression` and the subplan
part of `PlannerContext`.  The loops of `Flatten` and `ComputeSize` are the explicit-stack loops of the code, with fuel; theorems say that
enough fuel exists and that more does not change the result.  `none` is undefined behaviour.  `Spec.lean` states what an operation may do
(`Program`, `Seg`, `Replaces`, `SamePrograms`, planning scripts) on the heap itself.  `Tree/Machine/Forest/Effect/Ops/Main/Script` prove that
every reachable heap is a forest and that each operation is a local update of one tree.  Simplified: a step and a recursive program are
opaque values (so `Out` records only identity and order); expression ids are identified with expression pointers; `int` offsets do not
overflow; moved-from slots are not represented.

## In-place rewriting (C83, `Verif/Rewrite`)

`Model.lean` is the loop of `AstRewrite` with its three kinds of records, the push functions, the traversal path and the flag, over an
`NExpr` (C61) whose nodes are named by address; a rewriter is any record of state-passing functions.  `mutable_` accessors that create an
unset child are modelled (`touchKids`).  `none` is a dangling pointer (or no fuel).  `Spec.lean` is the recursive description `Rw`/`RwKids`.
`Push/Run/Back/Live/Main` prove equivalence in both directions, that no pointer dangles, termination from a measure, and the corollaries.
Simplified: a callback is given the expression's value, not a pointer with identity; `TraversalStackUpdate` is given addresses; hooks may
not modify expressions outside the one they are given (the interface hands out no other mutable reference).

## Reference resolution (C84, `Verif/Refs`)

`Model.lean` has the two hooks of `ReferenceResolver`, the issue collector and status, `BestOverloadMatch`/`OverloadExists` over the registry of
C43 with the candidate names of C38, and `ResolveReferences` as `astRewrite` (C83) of these hooks; `planned` is the planner's lookup.
`Spec.lean` says per node what it becomes (`resolved`) and what is reported (`warnings`), without the set of rewritten ids.
`Lookup`, `Proof`, `Main`, `Witness` prove the pass equal to it.  Simplified: the reference map is a function; message texts are constructors;
`operand()` of an unset operand reads as no name.

## Ids in the parser (C85, `Verif/Ids`)

`Model.lean` has the factory (`NextId`, `CopyId`, `EraseId`, positions, macro position, macro calls), `Copy`, `BuildMacroCallArg`,
macro expanders as programs over registers (a register moved from is empty), `GlobalCallOrMacroImpl`/`ReceiverCallOrMacroImpl`, and the visitor:
for every node of an abstract syntax tree the ranges for which ids are taken before, between and after its children. `Std.lean` has the
nine standard macros and `cel.bind` as programs. `Spec.lean` lists all ids of an expression and forgets ids. Not modelled: syntax errors
and anything that reports an error (no AST then), the text-to-tree step (C54), an expander that declines after taking ids, ids beyond int64.

## Macro calls in the parser (C86, `Verif/Ids/Calls*.lean`)

`CallsSpec.lean` has the reader `Reads` (a node with a recorded call reads as that call – what `Unparser::Visit` does first, `tools/cel_unparser.cc:162-166`),
the parser without macros and `FreshMacros`. `CallsProof.lean` has the reader with a bound on ids (ids below the counter never get
a record later), and the balancer for related operands. `Calls.lean` has the theorems. Not modelled: the `ast` conversion to protobuf, the printing of the unparser (C63–C65).

## Type representations (C87, `Verif/TypeConv`)

`Model.lean` has `Type`, `TypeSpec`, `Config::TypeInfo` and the five conversions; a null child of a specification is an unset one, as the
accessors read it; a descriptor pool is what its two look-ups find; primitive and wrapper types are grouped. `Spec.lean` has the four
predicates of the statement. Not modelled: arenas, error messages, `TypeInfoToType` without a descriptor pool, the signature text between (C58).

## Order on legacy values (C88, `Verif/LegacyOrder`)

`Model.lean` has `ComparisonImpl` and `ComparisonVisitor` for all fifteen kinds. Messages, unknown sets and errors are addresses; an error also has a
number for its status; durations and timestamps are numbers; doubles are C04's. `std::sort` on keys is insertion sort (any sort agrees, keys being
different); keys are the four valid kinds, and `C88_keys` says their comparison is `CelValueCompare` on them. Not modelled: lists and maps whose
`Get` or `ListKeys` fail (the code dereferences the result).

## Masks on message types (C89, `Verif/Mask`)

`Model.lean` has `ProtoTypeMaskRegistry` and `LookupStructField`. A descriptor pool is three questions (is there a message type, has it a field, is the
field's type a message type); paths are already split at dots; sets are lists. Not modelled: error messages, the variables a context declaration
makes of the first names of its paths, failing type providers.

## Values as messages (C90, `Verif/ToValue`)

`Model.lean` has `CelValueToValue` and `ValueToCelValue`; durations and timestamps are numbers of quarter nanoseconds, encoded and decoded as in
`proto_time_encoding.cc`. A message that is not of a well-known type is a number and is packed into and unpacked from its `Any` unchanged; what
`CreateMessage` makes of any other `Any` is part of the object, and `C90_settled` asks that it is whole and has maps. Not modelled: null messages,
seconds near the ends of `absl::Duration`, `kAny`.

## Strings in YAML (C91, `Verif/Yaml`)

`Model.lean` has `ScanYamlStringElement`: each loop is a function that says how far it goes in the rest of the view. The value is a list of code points (it
comes from a YAML scalar and is valid UTF-8). Not modelled: the YAML parser that gives position and value.

## Type names (C92, `Verif/TypeName`)

`Model.lean` has `FormatImpl` (what is appended and pushed) and the loop of `FormatTypeName`. A `TypeType` has no parameter or one, as in
`common/types/type_type.h`; a function type has no contents, because they are not printed.

## Field paths (C93, `Verif/Fields`)

`Model.lean` has `ExtractFieldPaths` as a fold over the nodes in preorder. Constants, calls, lists, structs and maps are one constructor with children, because
the loop treats them alike; every select has an operand (perhaps an empty expression). The set is a list.

## Extension registries (C94, `Verif/Registry`)

`Model.lean` has the search of both registries (it is the same). A factory or callback is a number. Not modelled: what the library then does.

## Positions in the legacy API (C95, `Verif/Position`)

`Model.lean` has `SourcePosition`; offsets are unbounded integers. The line offsets of parsed texts are those of C42.

## Disagreements between the code and its English claims, all with proved witnesses

* C05: `int(-9223372036854775808.0)` is rejected although representable.
* C07/C08/C09: durations beyond int64 nanoseconds are clamped before the overflow check; `t - t` reports overflow for some representable differences.
* C11: `==` on numbers is not transitive (rounding).
* C15: counting code points of an ill-formed Cord reads past the end (undefined behaviour).
* C22: a `cel.bind` slot may share its number with an iteration slot; after an early loop exit the stale binding is read (`clash_machine`).
* C23: recursive and iterative plans differ when attribute patterns are in force (`differ_stale_trail`, `differ_missing`), when a hand-written loop step reads the accumulator after its first operand was written into it (`differ_alias`), in literals whose later entries have effects or are errors (`differ_literal_error`, `differ_unknown_key`, `differ_duplicate_key`, `differ_optional_entry`), for `has()` on optionals (`differ_has_optional`), in one message text (`differ_ternary_text`) and where the iterative plan is wrong (`differ_clash`). A limit below -1 refuses every plan.
* C25: with an unknown attribute pattern, short-circuiting is observable: the skipping step leaves the left operand's attribute trail on the result, so an enclosing negation/selection can become unknown (`C25_unknown_patterns_observe`); loop conditions that no macro writes do not stop an exhaustive loop (`C25_other_loops_observe`); a non-bool ternary condition reports `<jump_condition>` when short-circuiting and `_?_:_` otherwise.
* C26: with the legacy accumulator name `__result__` a user variable of that name is captured inside a macro body (`C26_old_accumulator_captures`); `@result` is safe since it is not an identifier.
* C30: unsupported qualifiers are incomparable but unequal.
* C34: `{1: 'a', 1u: 'b'} == {1: 'a', 2: 'b'}`-style asymmetry for maps mixing int and uint keys.
* C35: `1u in m`/`d in m` and `==` disagree on mixed keys and beyond 2^53; the registered uint overload of `in` on maps consults the wrong key.
* C47: a repeated key aborts the evaluation (status) instead of giving an error value.
* C48: `optional.of(1).x` aborts; `optional.of([1])[5]` is an optional holding an error.

* C38: function overloads bound lazily are looked up by arity without the container (`C38_lazy_resolution_fails`).
* C39: regrouping by the balancer changes which error is reported when operands are not bool (`C39_nonbool_observes`).
* C42: a text of 2^31-1 bytes overflows int32 (`C42_size_limit_overflows`); `GetPosition` does not check the column (`C42_column_unchecked`, `C42_column_overflow`).
* C43: one lazily bound overload hides every static overload of the same name, style and arity (`C43_lazy_hides_static`).
* C44: a provider that looks up a provided variable of its own activation deadlocks (`C44_progress_fails`, `C44_reentrant_deadlock`); moving an activation loses its attribute matcher (`C44_move_loses_matcher`).
* C40/C41: `sets` and `distinct` use value equality rather than `==`, so `{1: 2}` and `{1u: 2}` differ for them; membership up to rounding is not transitive.
* C41: `lists.range` of a negative number reserves a negative size (ends the process); sorting doubles with a NaN among them hands std::sort a comparison that is no order (undefined behaviour); `sort` is not stable.
* C36: two `AssignabilityContext`s used side by side can commit a cyclic binding, after which substitution never ends (`C36_side_by_side_cycle`; the header warns of inconsistencies, and the checker never does it).
* C37: widening a binding loses what was checked against the old one: `o(T, wrapper(int))` is assignable to `o(null, T)` but not after substitution (`C37_widening_unsound`, `C37_widening_unsound_ground`); a failed check inside an assignability context keeps partial bindings although type_inference_context.h:179-180 says it leaves them unmodified (`C37_session_failure_leaks`).
* C46: `s.substring(i, size(s))` is an error for every `i < size(s)` (`C46_substring_to_end_fails`; common/values/string_value.cc:726).
* C45: `math.least(9007199254740993, 9007199254740992.0)` is 9007199254740993 (`C45_least_not_least`); a NaN is returned if it comes first and ignored otherwise (`C45_nan_depends_on_order`).

- C52: outside the interface, a moved-from medium string keeps its pointer and size with a cleared owner, so it is not "valid but unspecified": reading it after the target dies is a use after free (`C52_moved_from_dangles`). `a = b` takes `b`'s arena although the class comment says the allocator never changes (`C52_assign_changes_arena`). `Substring` leaves short medium strings, so copying one with an allocator violates the `ABSL_DCHECK_GT(size, 15)` in SetMedium in debug builds (`C52_short_medium`).
- C53: on a cord, Find of an empty needle at `pos = size()` answers nothing; on flat strings it answers `size()` (`C53_find_empty_cord`).
- Not in the model: `Owner::operator=` destroys the old owner before copying the new one (memory.h:166-172), which is a use after free when the source lives inside the object owned by the destination.
* C57, `unnesting_height_limit` is documented to be exceeded only "by a small, fixed margin" (policy/compiler.h:26-28). `Slice`
  cuts the nodes whose height is a multiple of the limit, but a path from a tall node can step over the multiples (a node
  of height 7 whose children have heights 6 and 3): `C57_limit_not_kept` gives, for every limit and every margin, a policy
  that exceeds it. Variables are never cut at all (`C57_variables_not_cut`). Where no path steps over, the margin is
  `limit + 1`, not fixed (`C57_height_of_chains_partial`).
* C55, `condition: true` and another condition that is always true are not the same: a nested rule without a match falls
  through to the next match only under the literal (`C55_literal_true_differs`).
* C54, the unparser prints texts that mean something else or do not parse: `-(-x)` and `!(!x)` become `--x`, `!!x`, which are
  `x` (`C54_double_negation`, `C54_double_not`); `!(-x)` becomes `!-x`, a syntax error (`C54_not_of_minus`); `(-x).f` and
  `(-x)[i]` lose their parentheses and negate the result instead (`C54_select_of_minus`, `C54_index_of_minus`); the call
  `-(1)` becomes a literal (`C54_minus_of_literal`); `has((a + b).f)` becomes `has(a + b.f)`, a syntax error
  (`C54_has_of_sum`); a field named `true` is printed bare (`C54_field_true`); `_in_` comes back as `@in`
  (`C54_old_in`); `1.0` comes back as an int (`C54_double_as_int`); the second variable of a comprehension is dropped
  (`C54_second_variable`); `a && (b && c)` comes back as `(a && b) && c` (`C54_reassociated`).
* C58, a blank in a type or function name is written unescaped and dropped on reading; a message or abstract type called `int`,
  `list`, ... has the signature (and so the default overload id) of that type; `f(\\)` and `f(a)b)` are accepted as function
  signatures (`C58_signature_limits`).
* C59, the collision check compares each pair of parameter types in one direction or the other as a whole, so
  `f(map<dyn, int>)` and `f(map<string, dyn>)`, `f(int_wrapper)` and `f(string_wrapper)`, `f(~A)` and `f(int)` are accepted
  together although one call matches both (`C59_ambiguous`).
* C60, the checker asks nothing of the type of a loop step or condition and resolves the condition outside the scope of the iteration
  variables, in which it runs: hand-built or deserialized comprehensions are accepted and fail at run time (`badStep_fails`,
  `badCond_fails`, `capture_fails`). `[1] in {}` is accepted with a map whose keys are lists and has no overload at run time
  (`listKey_fails`). `ol[5].x` on an optional list puts an error into the optional value and then reports a selection from a
  non-message (`optIndex_fails`). A wrapper-typed operand is accepted for the wrapped type and may be null (`wrapSum_fails`).
  Also seen: `PostVisitMap` checks values outside its assignability context, so what they bind is kept even when the value type falls
  back to `dyn`; a member overload named `_&&_` would be checked against its first parameter only; enum types in declarations
  instantiate to the error type, which accepts anything.
* C61, a struct expression with an empty name is written without complaint and read back as a map, or refused if it has fields
  (`C61_finding_nameless_struct`); sub-nanosecond durations and timestamps are silently truncated (`C61_finding_subnanosecond`);
  `type(⟨unset⟩)` comes back as a null pointer, which `==` distinguishes (`C61_finding_type_of_unset`); `AstToCheckedExpr` and
  `AstToParsedExpr` do not clear the output: line offsets, extensions and function argument types are appended, stale map entries stay
  (`C61_finding_output_not_cleared`).
* C62, `operator==` on comprehensions ignores `iter_var2` (`common/expr.h:858-866`, `C62_finding_iter_var2`), and an expression with a
  NaN constant is not equal to itself (`C62_equality_laws`). By reading only: `ComprehensionExpr::Clear()` (`common/expr.h:1174-1182`)
  leaves `iter_var2` set.

* C64, `DescendantsPostorder()` takes a slice of the postorder array starting at the node's *preorder* index: it is wrong for every node
  except the root (`C64_finding_postorder`; its only callers use the root). `GetChildKind` decides key or value by the parity of the
  child index, wrong once a key or value is unset (`C64_finding_map_relation`). All unset list elements share one default expression, so
  `FindExpr` on one finds the first, and their ids (0) repeat.

* C65, the homogeneous-literal validator reads the first parameter of `optional_type` without checking that there is one
  (`C65_finding_bare_optional`, undefined behaviour for hand-built type maps); the timestamp validator refuses literals that evaluate fine when
  overflow errors are off (`C65_finding_timestamp_overflow`). Only the first configuration for a function name counts in the regex
  validator.

* C66, `%s` of a map drops an entry when two keys have the same text (`{1: …, "1": …}`), which one depending on the iteration order
  (`C66_map_collision_witness`); `%s` of a double has six significant digits (`C66_double_lossy_witness`); bytes are copied unchecked, so
  the result may not be valid UTF-8 (`C66_bytes_witness`); a precision is accepted and ignored on `s d b x X o` (`C66_format` with
  `C66_decimal`, …); timestamps before the year 1000 are not padded (`C68_raw_text_witness`).

* C67, a time zone may be any text with a colon that `absl::ParseDuration` reads once the colon is `h` and `m` is appended
  (`C67_lenient_witness`, "1.5:30").

- C70: the stack machine's short-circuit `orValue` drops the attribute trail, so with `v.f.g` declared
  unknown `v.f.orValue(x).g` is a concrete value there and unknown under recursive planning
  (`C70_orValue_forgets_attribute_witness`); for a receiver that is not an optional it also evaluates
  the alternative (`C70_or_untyped_receiver_effects_witness`).
- C69: `l[?1u]` and `l[?1.0]` have no overload although `l[1u]` works
  (`C69_list_index_other_numbers_witness`); `m[?null]` is absent although `m[null]` is an error
  (`C69_unsupported_key_absent`); `optional.of([1])[5]` holds an error (`C48_optional_index_holds_error`).
- C72: with `enable_comprehension_list_append` and `short_circuiting = false` the append runs for every element
  before the predicate is consulted, so `[1, 2, 1].filter(x, x == 1)` is `[1, 2, 1]`
  (`C72_exhaustive_ignores_predicate`, `C72_exhaustive_filter_wrong`; the same holds for `cel.@mapInsert`).
- C72: `[e]` with `e` an error whose attribute is partially unknown is the error; `#list_append(accu, e)` is an
  unknown (`C72_partial_unknown_differs`).
- C72: with hidden accumulators off, `[1, 2].map(x, __result__)` is `[[], [[]]]` normally and a list containing
  itself when built in place (`C72_accumulator_alias`).
- C73: the check takes the maximum over the parts of a nested comprehension, so a step such as `[1, 2].map(y, accu)` passes and doubles the accumulator in every iteration (`C73_nested_loop_escapes`); function arguments and map keys are not counted (`C73_function_escapes`, `C73_key_escapes`).  The source documents that the check is not exhaustive.
- C73: shadowing by `iter_var2` is not considered, so a step that does not depend on the accumulator can be rejected (`C73_second_variable_ignored`).
- C74: `regex.extractAll` and `regex.replace` with a count search the remaining suffix as a new text, so `^` and `\b` match again at its start: `regex.extractAll("aaa", "^a")` has three entries and `regex.replace("aaa", "^a", "b", 2)` is "bba" (`C74_witness_anchor`).
- C74: `regex.replace` with a positive count does not advance after an empty match: `regex.replace("ab", "", "-", 2)` is "--ab" (`C74_witness_empty`), and for a count beyond `INT_MAX` the `int` counter overflows, after writing the replacement two thousand million times (`C74_witness_overflow`).
- C74: a count of 0 returns the target without looking at the pattern, so an invalid pattern is not reported (`C74_witness_zero`).
- C74: `re.captureN` with a group named like another group's number ends the evaluation with a status rather than an error value (`C74_witness_collision`).
- C75: in stack plans `RegexMatchStep` fails the evaluation with an internal status when its subject is an error or an unknown, so `bad.matches("x") || true` fails and partial evaluation of `u.matches("x")` fails (`C75_witness_stack`).
- C75: in both plans a subject of another kind fails the evaluation instead of giving a no-such-overload error value (`C75_witness_kind`), and a partially unknown subject is matched (`C75_witness_partial`).
- C75: an invalid constant pattern makes creating the program fail even where it is never matched against (`C75_witness_invalid`).
- C75: in unchecked expressions any function of two operands named `matches` is replaced (`C75_witness_host`).
- C76: integers beyond 53 bits become strings and do not come back equal; the equal double keeps a number (`C76_witness_big_integer`).
- C76: bytes and strings can have the same JSON (`C76_witness_bytes`); maps with integer or boolean keys have none (`C76_witness_key`), although map fields of messages with such keys do (C78).
- C77: two handles of the same JSON list with a NaN in it are `Value::Equal` by address, so `x in [x]` holds though `x == x` does not (`C77_witness_identity`).
- C78: message, map field and repeated field conversions do not clear their target (native lists and maps do): converting twice into one target doubles repeated fields (`C78_witness_target`).
- C78: `ParsedMapFieldValue::SerializeTo` serializes `list_value()` of the converted field, so every map field serializes as nothing (`C78_witness_serialize_map`); for repeated fields it is right (`C78_serialize_list`).
- C78: an enum field becomes its name, the value selected from it a number; undeclared numbers become a made-up name in singular and repeated fields but a number in map fields (`C78_witness_enum`).
- C78: a field mask converted on its own becomes an object with `paths` and cannot fail, inside a message it becomes one string or fails (`C78_witness_mask`); a comma in a path is not escaped (`C78_witness_comma`).
- C79: two empty fields whose types have nothing in common are unequal (`[]` of `string` and `[]` of `int64`, an empty `bytes` field and an empty `ListValue`), though each equals the CEL value `[]`: equality is not transitive (`C79_empty_not_transitive`).
- C79: map fields with signed and unsigned keys are equal by number, the corresponding CEL maps are not under `Value::Equal` (`C79_int_uint_keys`).
- C79: the same field of the same message is equal to itself even if it contains NaN, an equal copy is not (`C79_same_field`); a corrupt `Any` gives an error or `false` depending on what precedes it (`C79_corrupt`).
- C80: the index of a repeated field is truncated to 32 bits in the optimized step: `x.l[4294967296]` is the first element (`index_truncated`).
- C80: selecting from a null message aborts the evaluation with a status instead of an error value, so `|| true` no longer absorbs it (`null_operand_aborts`).
- C80: `has(x.im.foo)` on a map with integer keys is false, and an error when optimized (`has_key_type_error`).
- C80: a uint index of a dynamic list is an error when optimized (`uint_index_error`), a double index works although heterogeneous equality is off (`double_index_found`), an unset wrapper is null whatever the option says (`unset_wrapper_null`).
- C81: an error keeps the trail of the step that failed; indexing it can make it unknown because of an attribute the expression does not read (`unknown_of_another_attribute`).
- C81: with missing-attribute errors but without unknowns, a plain index drops the trail, so a missing attribute behind it is not found (`missing_lost_behind_index`).
- C81: selecting a marked attribute from a value without fields is an error in the stack machine and unknown in the recursive evaluation (`evaluators_differ`).
- C82: a jump offset is not updated when a subplan it spans is replaced later (`offset_is_stale_after_replacement`); the planner sets jumps after the optimizers of the children have run.
- C82: `ExtractSubexpression` on a child of a node with a recursive program is undefined behaviour (`extract_from_recursive_parent_faults`).
- C82: `ExtractRecursiveDependencies` on children that are not all recursive returns nothing but has destroyed the programs before the first that is not (`failed_dependency_extraction_loses_steps`); the planner checks the depth first.
- C82: `AddSubplanStep` reports success although a step offered to a recursive node is dropped (`addSubplanStep_drops_step`).
- C83: a rewriter that adds a level before every visit makes `AstRewrite` run for ever (`C83_boundary_divergence`); nothing in the code bounds it.
- C83: `AstRewrite` is not read-only even if nothing is rewritten: unset list elements and comprehension parts become default expressions although it returns false (`C83_visits`, `C83_example`).
- C84: names are qualified twice: `OverloadExists` and the planner qualify the already qualified candidate again, so with `a.f` and `a.a.f` registered `f()` in container `a` is planned as `a.a.f`, and with only `a.a.f` it is found though no candidate of `f` (`C84_boundary_doubled`).
- C84: a variable recorded under the very name it is written with is not protected from being read as a namespace: `x.f(1)` loses its target if `x.f` is registered (`C84_boundary_same_name`).
- C85: `MacroExprFactory::Copy` (and `BuildMacroCallArg`) call the one-variable `NewComprehension`: the copied target of `optMap`/`optFlatMap` loses the second variable of a two-variable comprehension such as `transformList(i, v, …)` (`C85_boundary_copy`).
- C86: a custom macro that returns its target unchanged makes its recorded macro call contain the node it is recorded for; `Unparser::Visit` then recurses without end (`C86_boundary_self`).
- C87: `TypeInfoToType` knows no enums (a configured enum name becomes an opaque type, while `ConvertTypeSpecToType` gives the enum – `C87_boundary_enum`), and an opaque type without parameters is exported as a message type, which then does not resolve (`C87_boundary`).
- C88: `CelValueLessThan` is not a strict weak order at NaN (`C88_boundary_nan`) or on errors, equal by status but ordered by address (`C88_boundary_error`); a `std::set` of values with either is undefined behaviour.
- C89: the comment on `ProtoTypeMask` says that all fields below the last name of a path are visible; visibility is per type, so another path through the same type hides them (`C89_boundary`).
- C90: an error is written as the string "CelValue::Type::kError" with an OK status, so it cannot be told from that string (`C90_boundary`).
- C91: for a source that ends in `"` ... `\` the end of the range is one past the end of the source (`C91_boundary`).
- C92: an opaque type of the name `list`, or a type parameter of the name `int`, cannot be told from the type of the language (`C92_boundary`).
- C93: `IsComprehensionDefinedField` also hides names in the range and the initial value, where the variables are not in scope (`C93_boundary`).
- C94: a library whose only version is negative is not found as the latest (`C94_boundary`).
- C95: parsed texts have line offsets of another convention than `SourcePosition` expects, so from the second line on the line is one too small (`C95_parsed`, `C95_boundary`).

## Not modelled

Protobuf reflection and descriptors, memory management/arenas, the ANTLR-generated lexer and parser,
RE2, time-zone database, absl hash containers' iteration order (treated as arbitrary order
where it matters), threads other than lookups in one activation; the C++ memory model (steps are sequentially consistent).
