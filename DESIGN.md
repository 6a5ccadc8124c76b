# Formal model of mjarkk/yarql in Lean 4 — design

(Plan first; the sections "Trusted base", "Findings" and "Status" are kept current as the work proceeds.)

## Layers of the model

| Lean module | Go source | content |
|---|---|---|
| `Model/Bytes.lean`, `Model/Decimal.lean` | `strconv.AppendInt` and friends | bytes, little-endian words, list patching, decimal digits |
| `Model/Parser.lean` | `bytecode/bytecode.go`, `bytecode_instructions.go` | the query parser, function by function, as `state -> ok value state / panic / out of fuel` |
| `Model/Cache.lean` | `bytecode/cache/bytecode_cache.go`, `ParseQueryToBytecode` | the query cache incl. slice aliasing of the fragment table and nondeterministic eviction |
| `Model/JsonString.lean`, `Model/Float.lean` | `helpers/encodeString.go`, `helpers/encodeFloat.go` | JSON encoding of strings; of floats, from the text `strconv` gives |
| `Model/Time.lean` | `helpers/time.go` | writing and parsing of time values |
| `Model/Schema.lean` | `parse.go` (structs), `grahql_types.go` | schema, values, inputs |
| `Model/Resolver.lean` | `resolver.go` | the bytecode interpreter over Go values, error list, paths, value stack, `Resolve` |
| `Model/Bind.lean` | `resolver.go` (arguments) | literals and JSON variables to Go parameters |
| `Model/Server.lean` | `resolver.go:165-298`, `implement_helpers.go` | `Resolve` with cache and left-over state over a history; `HandleRequest` on top of it |
| `Model/Http.lean` | `implement_helpers.go` | `HandleRequest` over an abstract `Resolve` |
| `Model/Introspect.lean` | `inject_schema.go`, `copy_schema.go`, `resolver.go` (`qlTypeNameToString`) | introspection with its memo tables, type notation, `Copy` |
| `Model/Naming.lean` | `parse.go`, `type_rename.go` | names of fields, methods, tags |
| `Model/Registry.lean` | `directives.go`, `enums.go`, `parse.go` | registration API as a state machine |
| `Model/TypeWalk.lean` | `parse.go`, `inject_schema.go` | `Parse`: the walk over an arbitrary (cyclic) graph of Go types |
| `Model/Tracing.lean` | `apollo_tracing.go`, `resolver.go` (tracing statements) | the traced resolver: the functions of the resolver model with the tracing statements in |
| `Model/Globals.lean` | `interfaces.go`, `type_rename.go` | `Implements`, `TypeRename` and the package variables they write |
| `Model/TypeList.lean` | `inject_schema.go`, `tester/tester.go` | the type and directive lists, for every order of Go's maps and outcome of `sort.Slice`; the tester |
| `Model/Buffer.lean` | `bytecode.go:17,47`, `resolver.go:1701-1705` | the memory of `ctx.query.Res` and the strings that point into it (`b2s`) |
| `Model/Body.lean` | `implement_helpers.go`, `resolver.go:132-171`, `copy_schema.go:50` | `HandleRequest` with the memory of the bodies it returns; several copies, append by append |
| `Model/Diff.lean` | `assert/difflib/difflib.go`, `assert/assert.go:795-800` | the unified diff of two texts |
| `Model/Assert.lean` | `assert/assertion_compare.go`, `assert/assert.go:150-740` | the assertions: order, tolerances, nil/empty/zero, report text |
| `Model/Todo.lean` | `examples/relay/backend/schema.go` | the todo backend, on the memory of `Model/Buffer.lean` |
| `Model/Ctx.lean` | `resolver.go:77-163` | request context: values, `SetContext`, returned errors (aliasing) |
| `Spec/*.lean` | – | small independent specifications: document grammar and tokens, encoding of documents, JSON texts, UTF-8, evaluator on documents, well-typedness, `SkipInclude`, error positions, depth, calendar, Go types, ... |
| `Proofs/*.lean` | – | helper lemmas |
| `Props/*.lean` | – | the property theorems, one file per area, each with non-vacuity examples and refutations |

Go conventions: an index out of range / nil dereference is an explicit `panic` outcome; every Go loop
that is not obviously structural takes fuel and an explicit `outOfFuel` outcome, and theorems prove that
a stated amount of fuel suffices (or, for the diverging programs, that none does). Slices are lists;
where aliasing is observable (fragment table, error list) there is an explicit heap.
`uint8`/`uint32` arithmetic wraps as in Go where the code relies on it (name length, directive
count, depth, value-stack index, 32-bit lengths).

## Per property: what is modelled, how it is proved

- C01 parser model; invariant per function (position never decreases, output never shrinks below its mark, a critical return adds an error), by induction on fuel; fuel linear in the input suffices.
- C02 grammar = token predicate over documents + lexical relation with arbitrary ignored text; `compile` = independent encoder; structural induction over documents.
- C03 corollary of C02.
- C04 parser tracks target index (C02 gives index of every operation); `Resolve` wrapper.
- C05 `err` loop against a declarative line/column specification; induction over the query.
- C06 converse of C02: every parser function that returns non-critically appended the encoding of some AST; induction on fuel.
- C07 `parseAndWriteName`, `parseDirectives` specs.
- C08 string literal relation; plus counterexample `\u0000` (resolver stops at the NUL).
- C09 number literal relation.
- C10 heap model of the shared fragment slice; counterexample history; positive theorem for documents without fragments / for a copying cache.
- C11, C12 invariants over histories with nondeterministic eviction.
- C13 encoder against an independent JSON-string decoder and UTF-8 specification.
- C14 output bytes against an independent JSON grammar; counterexamples (argument error leaves no value); positive theorem where arguments bind.
- C15 response envelope.
- C16, C43, C44, C46 refinement: interpreter on `compile doc` = evaluator on `doc`.  C43, C22, C26 and the object half of C44 for every request, without any hypothesis on the query: a relation between Go values and responses (`Spec/Reveals`) that every run of the interpreter satisfies (`Proofs/RevealsRun`, a program logic over its monad; `Props/EveryValue`).  Requests that are executed as something else than they say: `Props/Escapes`.  C46 also for every request by the event tree (`Props/EveryCall`).
- C17 directive evaluation inside the refinement, plus a call log in the world state.
- C18 counterexample (prefix names); positive theorem unless an earlier fragment has a longer name that begins with the spread's (`firstNamed`).
- C19 divergence theorem for a self-spreading fragment (no fuel suffices); termination theorem for documents whose selections nest finitely, or whose upper levels (down to the depth limit) are finite: cycles of fragments through fields (`Unfolds`, `Guarded` in Spec/Typed.lean).
- C20 FNV-1 collision witness; positive theorem under injectivity on the names involved.
- C21 depth counter; counterexample through interfaces; positive theorem without interfaces, for every request (`Proofs/DepthRun.lean`: invariant over the interpreter, no assumption on text or data).
- C22 256-slot wrapping value stack; frame theorem below 256 levels; counterexample at 256.
- C23, C24 integer conversion for all widths; counterexample for unsigned variables.
- C25, C26, C27, C29 argument binding on encoded values; counterexamples for lists and nulls in lists.
- C28 path in the refinement, and, for every request text and schema with no hypothesis, from a tree of events (`Spec/Events`, `Proofs/EventsRun`): the run of the interpreter *plays* a tree of entered keys, elements and calls, and the errors written are those of the tree.
- C30 cancellation in the refinement, and for every request by the event tree and a two-run simulation in which the results of cancelled calls differ (`Proofs/ResultSim`).
- C31 civil-time model of the layout string; UTC round trip; counterexample for other zones.
- C32, C33, C34, C49, C50 pure functions / API state machines.
- C35 memo state machine; counterexample (mutation fields stored under the query's key).
- C36 counterexample and characterisation.
- C37, C38 HandleRequest over an abstract JSON value and abstract Resolve.
- C39, C40 context state machine; counterexample for SetContext without context.
- C41 state reset of `Resolve`; counterexample for the returned error slice.
- C42 Copy on the schema model; counterexamples (`hidden`, cache rule).
- C45 little-endian words.
- C47 rejected: negation proved.
- C48 type walk with fuel bounded by the number of distinct named types.
- C51 argument types as introspection prints them against `checkVarType`; three exceptions refuted.
- C52, C53 introspection functions; refutations.
- C54 corollary of C19 (an answer exists) and C01; counterexample: `File` variable without `GetFormFile`.
- C55 the rewriting of `strconv`'s text against the JSON number grammar.
- C56, C57, C58 `Parse` on Go type graphs: what it exposes, that accepted programs satisfy the hypotheses (`WellTyped`) of the resolver theorems, how enums are recognised.
- C59 `Resolve` with the cache and all state left behind by earlier requests, over arbitrary histories; refuted for repeated fragment queries.
- C60 `HandleRequest` composed with C14, C19 and C59; `C60_every_http_request_partial` (Props/HttpTexts.lean) composes with C76, so that
  nothing is assumed about the parser.
- C61 `Model/Tracing.lean` has the traced resolver; forgetting the tracer gives the untraced one (`Proofs/Tracing.lean`, simulation). That no
  type text is a nil dereference follows from C48.
- C62 an invariant of the tracer over all traced executions (`Proofs/TraceInv.lean`), for any non-decreasing clock. Nesting is refuted.
- C63 C61 composed with C14.
- C64, C65 `Model/Globals.lean` has the two functions over the package variables; an invariant over histories says what the tables hold, composed with C48.
- C66-C68 `Model/TypeList.lean` describes the lists as relations (every order of Go's maps, every outcome of the unstable sort); C66 composes
  them with C35 (`Props/Roots.lean`), C67 with C48 and C64, C68 with an invariant over registration histories (`Props/DirectiveList.lean`).
- C70 `HandleRequest` composed with C37, C38, C41 and C59; the specification `Responds` is independent of the handler.
  `C70_every_http_request_partial` composes with C76.
- C69 a step of `Parse`, composed with C48; with it the assumptions of C35 hold of every schema `Parse` returns (`C35_parsed_partial`).
- C71 user functions act on a shared world; an execution is a chained sequence of calls by any of the requests (`Spec/Schedule.lean`); the
  resolver is simulated under any change of world that its own functions cannot see (`Proofs/WorldSim.lean`).
- C72, C73 a heap of schemas with the pointers `Copy` shares (`Model/Pool.lean`); invariant over programs of Parse/Copy/requests.
- C74 the interpreter on the bytecode of `d` simulates the evaluator on `docCut d` (`Spec/Cut.lean`, `Proofs/Refine.lean`); texts of cut documents from derivations of the grammar.
- C75 one direction is C02; the other: each parser function, run without an error, has read a token sequence of its nonterminal (`Proofs/Text*.lean`: `Reads q p p' toks`), by induction on the recursion; ignored text, names, numbers, strings from the text alone.
- C76 case distinction on the grammar (C75): well-formedness and size of documents from derivations (`Proofs/TextSize.lean`), injectivity of the encoding by decoding it construct by construct (`Proofs/EncInj.lean`), then C04, C14, C19 and C74.
- C77 inversion of the specification `Shows` (proved equal to the responses by C16/C43); the names of implementations come from C48.
- C78 from C48 (`Mirrors`, `Params`) and the `Fields` closure of interfaces (sort is a permutation); the refutation by a concrete program.
- C79 every change of a Go variable by the binder, from whatever bytecode it reads, is a `Delivered` step (`Proofs/DeliverAny.lean`, induction on the fuel); the relation `Reveals` of a response to the data (C43, every request) carries the inputs of each call; that the parameter types are respected is an induction over `Delivered`.
- C80 the same induction collects the messages (`Delivered.Reason`); paths by induction over `Reveals`.
- C81 evaluating `a ++ b` is evaluating `a` and then, unless it ended critically, `b` (induction on `a`); errors reported before do not matter to what follows (`Proofs/TwoRuns.lean` with another frame).
- C82 the bisimulation of C18 with spreads that find equal fragments.
- C83, C84 congruence of `Shows` under respelling (`Spec/Respell.lean`, induction over `Shows`; arguments to different parameters commute), between the two directions of C16. C84 with errors: the two evaluations side by side (`Proofs/Alias.lean`, `Sim`: the same effects and messages, results and paths related place by place, `Spec/Alias.lean`).
- C85 heap of backing arrays with `append`, stores and cuts (`Model/Buffer.lean`): refinement to plain lists by induction over the writes and over histories.
- C86 the functions of the example as steps on the memory of C85; refinement to a list of values by an invariant (ids distinct and below the next one).
- C87 `HandleRequest` on the memory of C85, refinement to `Model/Http.lean`; frame lemma (a request writes its own array or new ones); for copies the invariant that each `Result` has its own array, by induction over interleaved events.
- C88 `Spec/Fault.lean` says what a fault of the request is (type of the object and nesting level included); induction over the evaluator: if it stops, the last error is such a fault (`Proofs/Fault.lean`); then as C81. Converse: `Spec/Ends.lean`, induction on why the selection is refused (`Proofs/Ends.lean`).
- C89 the whole of `difflib.go` (`Model/Diff.lean`); `Spec/Patch.lean` says what a unified diff is; matching blocks are in order and equal, so the codes tile both
  texts; invariant of the grouping loop: the group is contiguous, lines left out are equal (`Proofs/Diff.lean`, `Proofs/DiffText.lean`).
- C90 equal texts: the best match stays on the diagonal (`Proofs/DiffSame.lean`); a unified diff can be read in one way only (`Proofs/Patch.lean`).
- C91 the rows of the dynamic programme are exact where no line is left out of the index (`Proofs/DiffLongest.lean`); refuted for frequent lines.
- C92 `Spec/Flat.lean` computes from the schema which types can occur where; the flattened selections are evaluated like the original ones, with more fuel (`Proofs/Flat.lean`, induction on the fuel of the original); then as C18.
- C93 `Spec/Grow.lean` (extended schemas, what a document uses); both schemas evaluate every selection alike (`Proofs/Grow.lean`, induction on the fuel, all evaluator functions together); then as C18. A schema that `Parse` returned is closed (`Proofs/GrowParse.lean`, from the tables of the walk).
- C98 the invariant of the grouping loop is a condition on the codes of the open group (`Tidy`): kept lines and changes take turns, runs of kept lines are short (`Proofs/DiffContext.lean`, spec `Spec/Context.lean`).
- C94-C97 `Model/Assert.lean` models the assertions over a type of Go values (`Val`) with exact rationals, infinities and NaN for floats and an arbitrary rounding; `Spec/Assert.lean` has the order of values, the numbers, the lines of a text, all independent of the code; proofs by cases over the values and induction over strings, slices, keys and texts.
- C97 (places), C99 `Model/AssertError.lean` models errors as the list of what `errors.Unwrap` gives and a stack as a list of calls; `errors.Is`/`As` are those of go 1.16; `Spec/AssertError.lean` says what matches and which calls are a library, a helper or a test. Induction over chains and stacks.

## Trusted base

* Lean 4.33.0's kernel, and the three standard axioms `propext`, `Classical.choice`, `Quot.sound` (checked with
  `#print axioms` for every theorem named in `MANIFEST.json`; `vcheck` replays all modules). No axiom is added; nothing
  rests on compiled evaluation. `decide +kernel` is kernel reduction and occurs only in refutations and examples.
* The correspondence between model and Go source. It is by reading: every definition under `Model/` cites file and
  lines. Nothing was executed (the sandbox has no dependencies), so the model is not tested against the binary.
* What the models of the environment say: `Env` (user functions as state transformers on an arbitrary world, reflection
  as `view`), `strconv`'s integer functions and `time`'s one layout (modelled), `strconv`'s float functions, `fastjson`
  and `encoding/json` (parameters). Each theorem that needs something of them has it as a hypothesis
  (`WellTyped`, `Reflects`, `JNumber (floatText ..)`).

### Modelled, whole functions

`bytecode.go` (all of it), `bytecode_cache.go`, `encodeString.go`, `encodeFloat.go`, `time.go`, `resolver.go` (the tracing statements in `Model/Tracing.lean`), `apollo_tracing.go`, `implement_helpers.go` (HandleRequest and its helpers), `copy_schema.go` (the copied data),
`inject_schema.go` (all resolvers of the introspection types), `parse.go` (Parse, check, checkStructField, checkFunction,
checkFunctionInput, ...), `directives.go`, `enums.go`, `interfaces.go`, `type_rename.go`, `tester/tester.go` (the
resolution of its one query is composed by hand from the functions it calls), `assert/difflib/difflib.go`, `assert/assertion_compare.go`, the assertions of
`assert/assert.go` on values, the naming helpers.

### Not modelled

the HTTP servers of the examples (routing, static files), of `assert`: the texts of failures about values, `ObjectsAreEqual` (a parameter), `JSONEq`; interleavings inside one schema (a Schema is documented as
single-threaded; `Copy` is how one serves concurrently) and inside a user function (C71 interleaves whole calls of user functions, and
lets a request inspect a value at one moment between two of its own calls), the Go memory model (C73 lists the memory cells each kind of
request writes by reading the code: `Model/Pool.lean`), memory exhaustion and Go stack exhaustion (unbounded recursion is
"no answer with any fuel"), the texts of errors from `strconv`/`fastjson`. Numbers of the
variables text are taken to be JSON numbers (`fastjson` lets more through, such as `+5`, whose `Int64` it then refuses).

## Findings

Defects of the Go code that the proofs turned up. Each is a proved refutation, or the exact side condition of a theorem.

1. The cache stores the fragment table without copying it: a repeated long query with fragments is answered with "fragment F
   not defined" after another query with fragments (C10, C59).
2. `\u0000` in a string literal cuts the string (C08).
3. `__typename` with a selection or arguments, and a failing method argument, write a key without a value: the response is not
   JSON (C14).
4. `...F` selects the first fragment whose name *starts with* `F` (C18).
5. A fragment cycle makes the request run forever (C19).
6. Fields are looked up by a 32-bit FNV-1 hash only: `creamwove` and `quists` collide (C20).
7. The depth limit compares for equality; interfaces count twice and can step over it (C21).
8. The value stack wraps after 256 levels (C22).
9. JSON numbers for unsigned parameters and numeric IDs are truncated instead of refused (C24).
10. Arguments after a list argument are dropped silently, or the selection is lost (C25).
11. An object literal ending in `null` is not delivered to a pointer parameter (C25).
12. An integer literal bypasses the check of integer enums (C27).
13. Times are written as `Z` without conversion to UTC (C31).
14. `RegisterDirective` leaves a half-registered directive behind when it fails (C33).
15. The memo of introspected mutation fields uses the key of the query type (C35).
16. Type notation of lists of non-null elements is printed in the wrong order (C36).
17. `SetContext` dereferences nil if the request had no context (C40); `SetValue` on a nil map (C39).
18. The error slice returned by `Resolve` is overwritten by the next request (C41).
19. `Copy` shows hidden fields, resets the cache rule, drops enum descriptions (C42), and shares the introspection closures with
    the original.
20. Arguments before directives are a syntax error (C47).
21. `type A []A` makes `Parse` recurse forever; same-named types of the same package (renamed or function-local), and same-named
    input structs of different packages, are merged silently (C48).
22. A method named exactly `Resolve` crashes `Parse` (C49).
23. Introspection shows no directive arguments (C52), and no fields of input objects reached through arguments (C53).
24. Introspected types are not usable for integer enums, `[]*T` and `[n]T` parameters (C51).
25. A client can make `Resolve` panic (index out of range): `null` in a list of nullable enums (`[null, RED]` for `[]*Color`), or a string with
    `\u0000`, after which the string's bytes are executed as bytecode; and a `File` variable without `GetFormFile` panics (C54).
26. Unexported struct fields are exposed (C56); enums are recognised by bare type name (C58).
27. The "two structs with the same name" check is bypassed by registered implementations (C48).
28. A trace reports a field with nested fields as starting when its last nested field started (`prefRecordingStartTime` is one variable for
    all fields, resolver.go:1688-1699): the span of a parent does not enclose its children (C62_refuted_nesting).
29. `implementationMap`, `structImplementsMap` and `renamedTypes` are keyed by bare type names: registering a struct for two interfaces of
    one name in different packages loses the second (and such a program is rejected), and `TypeRename(a.User{}, …)` renames `b.User` as
    well (C64_refuted, C65_refuted). A struct and an interface of one name are both accepted (C65_refuted_kinds).
30. `Parse` accepts a struct named like a scalar (`Time`, `File`, …), an enum registered twice, or a struct and an interface of one name; the name
    is then listed twice, and `__type` answers with whichever Go's map order and the unstable sort put last (C67_refuted).
31. After a refused `RegisterDirective` the directive list depends on map order (C68_refuted); a directive for an undefined location is
    accepted and shown as one for fields (C68_refuted_location).
32. `Parse` rejects different root types whose package path and name concatenate to one text, and any two unnamed structs (C69_refuted_converse).
33. `tester.HasFields` fails for the root query type after any introspection of the mutation type's fields (C66_refuted, consequence of C35).
34. A copy's `__schema` runs closures of the schema it was copied from, and shares its tracer: requests on different copies race on the
    memo maps (concurrent map writes abort a Go program) and on the trace, and the confusion of finding 15 crosses copies (C72_leak, C73).
35. The grammar yarql accepts is wider than GraphQL in places (C75): a definition keyword and the `on` of a fragment definition may be glued to the name that follows (`queryA{f}` is the query `A`, `fragment F onT{f}`), the variable list may start with a comma, selection sets and argument lists may be empty, digits may contain `_` and be absent (`-`, `.`, `1.e`), one comma is accepted after any item. And narrower: `[T] !` and `$ name` with a blank are rejected, arguments come after directives (C47).
36. An interface field that holds a pointer to a registered struct is null, without an error: `reflect`'s `Name()` of a pointer type is empty, and the resolver compares it with the struct's name (C77_refuted_pointer).
37. Introspection leaves out the arguments of the first parameter of interface methods: `checkFunctionIns` skips it as if it were a receiver, which methods of
    interface types do not have (C78_refuted). For the same reason an interface method's first parameter is not checked to be a struct.
38. Behind a list member of an object literal, the next member is bound to the function's own parameter of that name (`put(o:{xs:[1],n:7})` delivers 7
    to the parameter `n` of `put`, and 0 to `o.n`), without an error; arguments behind a list argument that are not declared do not stop the call
    (C25_refuted_escape, C23_refuted, C29_refuted, C26_refuted).
39. What follows an escaped NUL in a string literal is executed as bytecode: a string can replace the selection of the field it is an argument of, and
    write arbitrary text into the response (C16_refuted_by_nul, C14_refuted_by_nul).
40. A string argument shares its memory with the bytecode of the request (`b2s`), which the next request overwrites: a function that stores its
    argument, for example a mutation that adds a user's name to a list, finds it changed after the next request (C85: `Demo.C85_refuted`).
    Strings from variables share the memory of the JSON parser in the same way.
41. With an odd `MaxDepth` (the default is 255) the depth limit does not stop a fragment that selects itself below an interface field, if the
    data is cyclic: each level counts two, and the `uint8` counter wraps past the limit (C19_refuted_by_interface). In Go the recursion ends with
    a stack overflow, which cannot be recovered from.
42. `ResolveUpdateTodo` of the relay example stores `*args.Title` without a copy (`ResolveCreateTodo` copies): the next request overwrites the
    title. After updating todo 1 and then todo 2, todo 1 has the title of todo 2 (C86: `TodoApp.Demo.C86_refuted`).
43. `HandleRequest` returns the schema's own buffer: the body of a single request is overwritten by the next request on the schema (C87_refuted). A
    server that sends the body after the handler has returned, or that unlocks before it is sent, can answer one client with the data of another.
    (The fiber examples hand the slice to the framework without a copy, and without a lock.)
44. Before `Parse`, `HandleRequest` answers with a body of 16384 NUL bytes (C87_not_parsed).
45. `findLongestMatch` does not find the longest match as documented if the actual text has 200 lines or more and a line that occurs often (C91_refuted).
46. The order assertions hand `msgAndArgs` on as one argument (no `...`): the message given is printed as a list, `Messages: []` if there is none
    (C94_message). `Positive(t, nil)` panics (C94_refuted_nil).
47. `InDeltaSlice` and `InEpsilonSlice` run over `actual` only: a shorter one passes, a longer one panics (C95_refuted_part, C95_refuted_longer); `InEpsilonSlice`
    swaps expected and actual (C95_refuted_epsilon_slice); `InDelta` passes with a NaN as `delta`, `InEpsilon` with an infinite expected number (C95_refuted_nan, C95_refuted_epsilon).
48. `indentMessageLines` drops everything from the first line of 64 KiB on (C97_refuted_long_line), the diff below such a line included.
49. `assert.Panics` takes a panic with nil for none, as go.mod asks for go 1.16 (C99_refuted_panic_nil).
50. A test in a directory `assert`, `mock` or `require` is taken for a library: reports from it name no place (C97_refuted_place).
51. `messageFromMsgAndArgs` panics if the first of several values is no string: the failure it belongs to is not reported (C97_refuted_message).

## Status

Per property in `MANIFEST.json`; wrong programs tried in `seeded/LOG.jsonl` (`tools/mutate.py` runs them). `partial` means: the full
statement is false of the code (then it is refuted, and the theorem's extra hypothesis delimits it), or the hypothesis named in
the note.

