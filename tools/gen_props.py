#!/usr/bin/env python3
"""Single source of truth for properties.jsonl (run: python3 tools/gen_props.py)."""
import json, os
P = []
def p(id, title, statement, quantifier, why, anchors):
    P.append(dict(id=id, title=title, statement=statement, quantifier=quantifier, why_tests_cant=why, anchors=anchors))

B="bytecode/bytecode.go"; R="resolver.go"; D="assert/difflib/difflib.go"
p("C01","Query parsing always terminates and never panics",
  "For every byte sequence passed as a query and every operation target, parsing returns (no index-out-of-range, no endless loop); it yields either bytecode or a non-empty error list.",
  "all byte strings (any length, any bytes incl. NUL / invalid UTF-8) and all optional operation targets",
  "The repo only injects a few characters at each offset of a few queries; the claim is about every byte string.",
  [B+":ParseQueryToBytecode",B+":parseOperatorOrFragment",B+":parseSelectionSet",B+":parseInputValue",B+":mightIgnoreNextTokens"])
p("C02","Well-formed documents compile to the right bytecode",
  "For every document of the supported grammar, in every token layout (whitespace, line endings, comments, optional commas), parsing reports no error and the bytecode is exactly the documented instruction encoding of that document.",
  "all documents (any number of operations/fragments, any nesting depth, any values) and all layouts",
  "Tests compare a few dozen literal queries; grammar nesting and layouts are unbounded.",
  [B+":parseOperatorOrFragment",B+":parseSelectionSet",B+":parseAssignmentSet",B+":parseInputValue",B+":parseDirectives","bytecode/bytecode_instructions.go","bytecode/testing_framework.go:toBytes"])
p("C03","Layout never changes meaning",
  "Two texts of the same document that differ only in ignored tokens (spaces, tabs, CR/LF, comments) and optional commas parse to the same bytecode and the same fragment table.",
  "all documents, all pairs of layouts",
  "Infinite family of layouts.",
  [B+":mightIgnoreNextTokens",B+":isIgnoredToken",B+":parseComment"])
p("C04","Operation selection",
  "Without an operation name the last operation of the document is executed; with an operation name exactly the (last) operation carrying that name is executed, and if none carries it the response is empty data plus a 'no operator' error.",
  "all documents with any number of operations and fragments, all target names",
  "Needs all operation lists and all names.",
  [B+":parseOperatorOrFragment",R+":Resolve"])
p("C05","Parse-error locations",
  "Every parse error carries line = 1 + number of line terminators (LF, CR, CRLF counted once) before the parser position and column = number of bytes since the last terminator.",
  "all byte strings and all positions",
  "All mixes of CR, LF and CRLF at all positions.",
  [B+":err",B+":ErrorWLocation"])
p("C06","Accepted queries always compile to well-formed bytecode",
  "Whenever parsing reports no error, the bytecode produced is the encoding of some document, and every recorded fragment position points at a fragment of it.",
  "all byte strings accepted by the parser",
  "Soundness over all accepted inputs, not over a sample.",
  [B+":ParseQueryToBytecode",B+":parseSelectionSet",B+":parseInputValue"])
p("C07","Name and directive-count limits are exact",
  "A name of 1..254 characters is accepted and stored unchanged, a longer one is rejected with an error; up to 255 directives on one element are accepted and counted exactly, more are rejected.",
  "all names of any length, all directive lists",
  "Boundary must hold for all names, not just one repeat count.",
  [B+":parseAndWriteName",B+":parseDirectives"])
p("C08","String literals carry their decoded value",
  "A quoted string literal compiles to exactly its content with escapes decoded, and the resolver receives exactly those bytes.",
  "all string contents and all escape spellings",
  "All byte contents and escapes.",
  [B+":parseStringInputValue",R+":bindInputToGoValue"])
p("C09","Number literals keep their digits",
  "An integer or float literal compiles to the same number: sign, digits, fraction and exponent are preserved, '+' and '_' are dropped, and the int/float classification is exactly 'has a fraction or an exponent'.",
  "all integer and float literals, all following tokens",
  "Unbounded digit strings and followers.",
  [B+":parseNumberInputValue"])
p("C10","The query cache is transparent",
  "For every history of parses on one context, the outcome (bytecode, fragment table, target, errors) of parsing a query is the same as on a fresh context with the cache disabled.",
  "all finite histories of (query, target) parses, all eviction choices",
  "History dependent: only long interleavings of cached and uncached queries can expose it.",
  [B+":ParseQueryToBytecode","bytecode/cache/bytecode_cache.go:GetEntry","bytecode/cache/bytecode_cache.go:SetEntry"])
p("C11","The query cache is bounded",
  "After every history of parses the cache holds at most 100 different query lengths and at most 20 entries per length.",
  "all histories and all eviction choices (Go map iteration order)",
  "Random map iteration order and unbounded histories.",
  ["bytecode/cache/bytecode_cache.go:SetEntry"])
p("C12","The query cache never serves another query",
  "A cache hit is only ever returned for the very same query bytes and the very same operation target, and returns the bytecode stored by the most recent store for that pair.",
  "all histories, all queries, all targets",
  "Needs all histories incl. equal-length queries and evictions.",
  ["bytecode/cache/bytecode_cache.go:GetEntry","bytecode/cache/bytecode_cache.go:SetEntry"])
p("C13","JSON string encoding is correct",
  "Every Go string is written as a valid JSON string literal whose JSON decoding is the string itself, each byte of invalid UTF-8 being replaced by U+FFFD.",
  "all byte strings",
  "All byte strings incl. malformed UTF-8.",
  ["helpers/encodeString.go:StringToJSON"])
p("C14","Responses are well-formed JSON",
  "Whatever the query, the response body written by Resolve is a well-formed JSON document.",
  "all queries, schemas, resolver results, variables",
  "All error paths at all nesting positions.",
  [R+":Resolve",R+":resolveField",R+":resolveFieldDataValue",R+":resolveSelectionSet"])
p("C15","Every reported error reaches the response",
  "With metadata enabled the response's errors array lists exactly the errors returned by Resolve, in order, each with its message, and no errors key is present when there are none.",
  "all error lists",
  "Any number and kind of errors.",
  [R+":Resolve"])
p("C16","Response data mirrors the selection",
  "For every query whose arguments bind without error, the data object has exactly the selected, not skipped response keys in query order (fragments expanded in place) each with the value of that field.",
  "all documents, schemas and value trees",
  "Recursive over unbounded query/value trees.",
  [R+":resolveSelectionSet",R+":resolveField",R+":resolveSpread",R+":resolveFieldDataValue"])
p("C17","skip and include directives",
  "A field or fragment carrying @skip(if:true) or @include(if:false) contributes nothing to the response and its resolver is not called; otherwise it is resolved as if the directive were absent.",
  "all documents, positions and directive lists",
  "Any combination/position of directives.",
  [R+":resolveDirective",R+":resolveField",R+":resolveSpread","parse.go:NewSchema"])
p("C18","Fragment spreads select the named fragment",
  "A spread ...Name expands to the fragment defined with exactly that name.",
  "all fragment tables and names",
  "All name sets incl. names that are prefixes of each other, in any order.",
  [R+":resolveSpread"])
p("C19","Query execution terminates",
  "Resolve returns for every accepted query over finite data.",
  "all documents incl. fragment graphs with cycles",
  "A diverging run cannot be observed by a test; termination ranges over all documents.",
  [R+":resolveSpread",R+":resolveSelectionSet"])
p("C20","Fields are looked up by name",
  "A selected field name resolves to the struct field or method registered under exactly that name, and an unregistered name yields the 'does not exists on' error.",
  "all field names and all types",
  "Lookup goes through a 32-bit hash: only a proof over all names can rule out or exhibit confusion.",
  [R+":resolveField","parse.go:getObjKey","parse.go:check"])
p("C21","The depth limit is enforced",
  "No object nested MaxDepth or more levels deep is resolved; such a field is null with a 'reached max dept' error.",
  "all nesting depths, all MaxDepth settings, objects reached directly or through interfaces",
  "Counter arithmetic over all depths.",
  [R+":resolveFieldDataValue"])
p("C22","Each field is resolved against its own parent value",
  "Resolving a nested field never changes the Go value against which later sibling or ancestor fields are resolved.",
  "all queries and nesting depths",
  "Value stack has 256 slots addressed by a wrapping uint8; only unbounded depth shows it.",
  [R+":getGoValue",R+":setNextGoValue",R+":resolveFieldDataValue"])
p("C23","Integer literals are delivered exactly or rejected",
  "An integer literal bound to a Go integer parameter of any width and signedness is delivered as exactly that integer, or the request reports an error; never a wrapped value.",
  "all integer literals, all integer kinds",
  "All values around all width boundaries.",
  [R+":bindInputToGoValue"])
p("C24","Integer variables are delivered exactly or rejected",
  "A JSON number supplied through variables and bound to a Go integer parameter of any width and signedness is delivered exactly or reported as error.",
  "all JSON integers, all integer kinds",
  "All values around all width boundaries.",
  [R+":bindJSONToValue"])
p("C25","Argument values arrive as written",
  "Each argument literal (scalars, enums, null, lists, nested objects, in any order and number) is delivered to the resolver function as written, and execution continues right after the argument list.",
  "all argument lists, all value trees",
  "Unbounded nested values and positions.",
  [R+":callQlMethod",R+":walkInputObject",R+":bindInputToGoValue"])
p("C26","Unknown arguments are rejected before the resolver runs",
  "If a call carries an argument the resolver does not declare, or one whose value cannot be bound, the resolver function is not called and an error is reported.",
  "all argument lists and schemas",
  "All positions of the bad argument.",
  [R+":callQlMethod",R+":bindInputToGoValue"])
p("C27","Enum values round trip",
  "An enum value is written as the registered key of that Go value and a key supplied as argument (literal, string or variable) is delivered as the Go value registered under it; unknown keys are rejected.",
  "all enum tables and values",
  "All tables, all keys.",
  [R+":resolveFieldDataValue",R+":bindInputToGoValue",R+":assignStringToValue",R+":bindJSONToValue","enums.go:registerEnumCheck"])
p("C28","Error paths name the failing field",
  "The path attached to an execution error is the response path (aliases and list indices from the root) of the field being resolved when it occurred, and the path is restored after every field.",
  "all queries, all error positions",
  "All nesting shapes and error positions.",
  [R+":err",R+":resolveField",R+":resolveFieldDataValue",R+":GetPath"])
p("C29","Variables bind by name with defaults",
  "A variable reference delivers the value supplied for it in the variables object, else its declared default, else an error; an undeclared variable is an error.",
  "all variable definition lists, all supplied objects",
  "All definition lists and orders.",
  [R+":findOperatorArgument",R+":bindOperatorArgumentTo",R+":bindExternalVariableValue"])
p("C30","Cancelled contexts stop data",
  "Once the request context reports an error, every further resolver-function field yields null and an error instead of its value.",
  "all queries, all cancellation points",
  "All cancellation points.",
  [R+":resolveFieldDataValue"])
p("C31","Time values round trip",
  "A time.Time written in a response parses back (as argument) to the same instant at millisecond precision.",
  "all times and time zones",
  "All instants and zones.",
  ["helpers/time.go:TimeToIso8601String","helpers/time.go:ParseIso8601String"])
p("C32","Go names map to GraphQL names as documented",
  "A Go field name is lower-cased on its first letter unless its second character is not a lower-case letter; the mapping is idempotent, gives a valid GraphQL name to every exported ASCII Go name and different names to different ones; a gq tag overrides it, and a tag name or modifier that is not valid is rejected.",
  "all identifiers starting with an ASCII character, all tags",
  "All identifiers.",
  ["parse.go:formatGoNameToQL","parse.go:validGraphQlName","parse.go:parseFieldTagGQ"])
p("C33","Directive registration is atomic and unique",
  "After any sequence of RegisterDirective calls no location has two directives of the same name, and a call that returns an error leaves the schema unchanged.",
  "all sequences of registrations",
  "All sequences/locations.",
  ["directives.go:RegisterDirective","directives.go:checkDirective"])
p("C34","Registration is closed after Parse",
  "After Parse succeeded, RegisterEnum and RegisterDirective always fail and change nothing; before Parse, Resolve always fails with 'invalid setup'.",
  "all histories of API calls",
  "All call orders.",
  ["directives.go:RegisterDirective","enums.go:RegisterEnum","parse.go:Parse",R+":Resolve"])
p("C35","Introspected field lists do not depend on history",
  "Asking __schema/__type for the fields of a type returns the fields of that type, whatever introspection queries ran before.",
  "all sequences of introspection queries, all schemas",
  "History dependent memo table.",
  ["inject_schema.go:getQLSchema","inject_schema.go:objToQLType"])
p("C36","Tracing type notation",
  "The returnType reported by tracing is the GraphQL notation of the field's type (list brackets and bangs in the right order).",
  "all types of any list nesting",
  "All nestings.",
  ["parse.go:objToQlTypeName","inject_schema.go:objToQLType"])
p("C37","Batch requests",
  "A JSON array body yields a JSON array with one response per element, in order, each equal to the response of the same single request (with the errors concatenated), malformed elements yielding an error object without affecting the others.",
  "all batches",
  "Any batch size and mix.",
  ["implement_helpers.go:HandleRequest","implement_helpers.go:handleSingleRequest"])
p("C38","Request body validation",
  "Query, operationName and variables are taken from the body exactly when present with the right JSON type (null meaning absent); any other type yields an error response and Resolve is not run.",
  "all JSON bodies",
  "All shapes of bodies.",
  ["implement_helpers.go:getBodyData","implement_helpers.go:HandleRequest"])
p("C39","Context values behave like a map",
  "GetValue/GetValueOk return the value most recently SetValue'd for that key in this request, else the value supplied in the options, else absent.",
  "all sequences of SetValue calls, with and without supplied values",
  "All call sequences.",
  [R+":GetValue",R+":GetValueOk",R+":SetValue"])
p("C40","Setting the Go context works in every request",
  "After SetContext(c), GetContext returns c, whether or not the request was started with a context.",
  "all requests and call sequences",
  "Both initial states and all sequences.",
  [R+":SetContext",R+":GetContext"])
p("C41","Requests are isolated from each other",
  "Apart from the cache and user code, the response of a request does not depend on previous requests on the same schema, and the error list returned by a request does not change when later requests run.",
  "all histories of requests",
  "Requires arbitrary request histories.",
  [R+":Resolve",B+":ParseQueryToBytecode"])
p("C42","A copied schema behaves like the original",
  "Copy returns a schema that answers every query, including introspection, exactly like the original, with the same cache rules.",
  "all schemas and queries",
  "All schemas and queries.",
  ["copy_schema.go:Copy","copy_schema.go:copy"])
p("C43","Null-able Go values",
  "Nil pointers, nil slices, nil func fields and nil interfaces are written as null; a non-nil list is written with one entry per element in order; integers with the ID tag are quoted.",
  "all value trees",
  "All value trees.",
  [R+":resolveFieldDataValue",R+":valueToJSON"])
p("C44","Typename and interface dispatch",
  "__typename yields the GraphQL name of the runtime object type, and a value in an interface field is resolved as its registered implementation (null when unregistered).",
  "all implementations and values",
  "All registration sets.",
  [R+":resolveField",R+":resolveFieldDataValue","interfaces.go:Implements"])
p("C45","Length fields round trip",
  "A 32-bit length written into the bytecode at some position is read back unchanged and no other byte changes.",
  "all uint32 values, all buffers, all positions",
  "2^32 values times all positions.",
  [B+":writeUint32","bytecode/testing_framework.go:writeUint32At",R+":readUint32"])
p("C46","Resolver errors do not hide data",
  "If a resolver function returns an error next to a value, the error is appended to the error list once (with path) and the value is still written.",
  "all resolver outcomes and positions",
  "All outcomes.",
  [R+":resolveFieldDataValue"])
p("C47","Spec-conformant fields are accepted",
  "A field written as in the GraphQL grammar, arguments before directives, is accepted.",
  "all fields with arguments and directives",
  "All fields.",
  [B+":parseSelectionSet"])
p("C48","Type registration",
  "Parsing Go types terminates on every (also recursive) type graph, registers every reachable struct exactly once under its (renamed) name, and rejects two packages' structs of the same name.",
  "all finite Go type graphs",
  "All type graphs incl. cycles.",
  ["parse.go:check","parse.go:checkStructField","parse.go:checkFunction"])
p("C49","Resolver method naming",
  "A Go method is exposed exactly when it is named Resolve followed by a character that is not a lower-case letter, under its trimmed and formatted name; other methods are ignored; different methods get different names. (A method named exactly Resolve crashes Parse.)",
  "all method names",
  "All method names.",
  ["parse.go:checkFunction"])
p("C50","Enum registration",
  "Registered enum keys are valid GraphQL names, each key is registered with its value, and every other argument registers nothing (an error, or a panic in exactly the stated cases).",
  "all maps",
  "All maps.",
  ["enums.go:registerEnumCheck","enums.go:RegisterEnum"])

p("C51","Introspected argument types are usable",
  "The type introspection reports for an argument is a type with which a variable for that argument can be declared and bound.",
  "all argument types",
  "All argument types, of any pointer and list nesting.",
  ["inject_schema.go:inputToQLType",R+":bindOperatorArgumentTo"])
p("C52","Introspection shows directive arguments",
  "__schema{directives{args}} shows every registered directive with the arguments its function declares.",
  "all directives and argument structs",
  "All directives.",
  ["inject_schema.go:getDirectives","parse.go:Parse","directives.go:checkDirective"])
p("C53","Introspection shows input object fields on every route",
  "The inputFields of an input object type are the fields of its Go struct, whether the type is reached through __type(name:) or through the type of an argument.",
  "all input types and all introspection routes to them",
  "All types and routes.",
  ["inject_schema.go:inputToQLType","inject_schema.go:getAllQLTypes","parse.go:checkFunctionInput"])

p("C54","Resolve never panics",
  "Resolve returns a response for every query text, operation name and variables, whatever options the caller sets.",
  "all requests on all schemas",
  "All requests.",
  [R+":Resolve",R+":bindJSONToValue"])
p("C55","Floats are JSON numbers",
  "A float field is written as a JSON number of the same value; infinities and NaN are written as 0.0.",
  "all float texts strconv can produce, in both formats",
  "All floats.",
  ["helpers/encodeFloat.go:FloatToJSON"])

p("C56","Only what the Go types offer is exposed",
  "A field a client can select on an object type comes from an exported Resolve method or an exported, non-embedded struct field that is not tagged gq:\"-\", under the name the tag or the Go name prescribes.",
  "all Go programs Parse accepts, all types and fields of the schema",
  "All programs: one field that slips through leaks data.",
  ["parse.go:check","parse.go:checkStructField","parse.go:parseFieldTagGQ"])
p("C57","What Parse accepts can be served",
  "If Parse accepts a program, then every value the resolver reaches has the shape its schema type promises: serving a request on it does not panic by a type mismatch.",
  "all Go programs Parse accepts, all requests and all values the program's functions return",
  "All programs and all requests together.",
  ["parse.go:Parse","parse.go:check","parse.go:checkFunctionInput",R+":resolveFieldDataValue"])
p("C58","Enums are recognised by their Go type",
  "A Go type is treated as an enum exactly if it is the type that was registered with RegisterEnum.",
  "all Go types and registered enums",
  "All types.",
  ["enums.go:getEnum","parse.go:check"])

p("C59","A schema keeps answering like a new one",
  "Whatever requests a schema has answered before, it answers the next one as a newly parsed schema would in the same state of the program: neither the query cache, nor the parser's buffers, nor values left behind by earlier requests change a response.",
  "all histories of requests of any length, all next requests, all cache rules",
  "All histories: a cache fault shows only for particular sequences of queries.",
  [R+":Resolve","bytecode/cache/cache.go:CacheRequest","bytecode/cache/cache.go:GetEntry","bytecode/bytecode.go:ParseQueryToBytecode"])
p("C60","Every HTTP response body is JSON",
  "HandleRequest answers every HTTP request with a body that is one well-formed JSON text: one response object, an array of response objects for a batch, or an error object for a malformed request.",
  "all HTTP requests (method, content type, query, form, body bytes), all histories of requests before it, all well-typed schemas",
  "All requests and histories: the batch body is glued together from single responses.",
  ["implement_helpers.go:HandleRequest","implement_helpers.go:handleSingleRequest",R+":Resolve"])

p("C61","Tracing only adds",
  "Switching tracing on changes nothing about a request but the value of `extensions`: data, errors, the functions called and their effects are the same, and a request panics with tracing only if it does without.",
  "all schemas Parse accepts, all requests, all environments and clocks",
  "All schemas and clocks: the tracing statements run inside every field and could disturb or panic on any of them.",
  [R+":startTrace",R+":finishTrace",R+":resolveField",R+":Resolve","apollo_tracing.go:tracer","parse.go:objToQlTypeName"])
p("C62","The times in a trace are consistent",
  "In a trace, parsing and every field lie within the request, no duration is negative, fields are listed in the order they end and carry the type of a schema field, and the span of a field encloses those of its subfields.",
  "all schemas, requests and non-decreasing clocks",
  "All clocks: wall time in tests never shows the offsets are attributed to the right field.",
  [R+":startTrace",R+":finishTrace",R+":resolveField","apollo_tracing.go:finish"])
p("C63","Traced responses are JSON",
  "The body of a traced response is one well-formed JSON text.",
  "all requests on schemas Parse accepts, executed or not",
  "All requests: the trace is marshalled by another writer and pasted into the body.",
  [R+":Resolve","apollo_tracing.go:tracer"])

p("C64","Implements links both ways",
  "After any history of Implements calls, legal or not, the schema lists exactly the registered structs as implementations of an interface and exactly the registered interfaces for a struct, each once; an illegal call panics and changes nothing, a repeated one changes nothing.",
  "all histories of Implements and TypeRename calls, all Go types, all schemas Parse makes after them",
  "All histories: the tables are shared by every package of a program and keyed by bare names.",
  ["interfaces.go:Implements","parse.go:check"])
p("C65","TypeRename renames that type",
  "After any history of TypeRename calls a type has in the schema the name of the last legal call for it, and its Go name if there was none; a name given without force is a valid GraphQL name; an illegal call panics and changes nothing; no two types get one name.",
  "all histories of TypeRename and Implements calls, all Go types, all schemas Parse makes after them",
  "All histories and programs: only same-named types of different packages show what the table is keyed by.",
  ["type_rename.go:TypeRename","parse.go:check"])

p("C66","The tester tells the truth about a schema",
  "tester.HasType, TypeKind, HasFields and OnlyHasFields answer what the schema has: a type exists iff the schema shows it, with that kind; HasFields returns nil iff it is an object type or interface that has all the given visible fields, OnlyHasFields iff those are exactly its visible fields; whatever introspection was done before.",
  "all schemas Parse makes, all type and field names, all histories of introspection requests",
  "All schemas and histories: answers come from tables that are filled by earlier requests.",
  ["tester/tester.go:GetTypeByName","tester/tester.go:HasFields","tester/tester.go:OnlyHasFields","inject_schema.go:getTypeByName"])
p("C67","The type list is complete and unambiguous",
  "__schema{types} lists exactly the object types, interfaces, input types and enums of the schema and the seven scalars, each once, sorted, with its kind, interfaces, possible types, enum values and input fields; __type(name) answers with the listed type of that name; an object type names an interface iff the interface has it as possible type; nothing depends on the order of Go's maps.",
  "all schemas Parse makes, all iteration orders of maps and outcomes of unstable sorting, all names",
  "All iteration orders: a test sees one order per run, and few schemas.",
  ["inject_schema.go:getAllQLTypes","inject_schema.go:getTypeByName","inject_schema.go:objToQLType","grahql_types.go:scalars"])
p("C68","The directive list shows what was registered",
  "__schema{directives} lists, sorted, exactly one entry for each directive registered (skip and include among them), with its name and locations, whatever the order of Go's maps.",
  "all histories of registration calls, all iteration orders",
  "All histories and orders: a directive is stored once per location and must be found again as one.",
  ["inject_schema.go:getDirectives","directives.go:RegisterDirective","directives.go:ToQlDirectiveLocation"])
p("C69","The two root types differ",
  "Parse accepts only programs whose query and mutation types are different, so that the root types of the schema have different names.",
  "all Go programs",
  "All programs: the check compares texts made from package and name.",
  ["parse.go:Parse"])

p("C70","The HTTP handler answers what Resolve answers",
"HandleRequest answers an HTTP request with exactly the body and errors that Resolve gives, on a new schema and in the current world, for the GraphQL request the HTTP request carries: the query and operation name as given, the variables none if the text is empty, an error when used if the text is no JSON, metadata included. The items of a batch are answered in turn, each in the world the earlier ones left, invalid items with an error response that leaves the world alone; what was answered before does not matter.",
"every schema, every history of requests before, every HTTP request (URL, form, single body, batch, malformed), every behaviour of the outside world",
"the batch, the history and the world range over infinite sets; a test checks single requests on a fresh schema",
["implement_helpers.go:HandleRequest","implement_helpers.go:handleSingleRequest","implement_helpers.go:getBodyData",R+":Resolve"])
p("C71","Requests served at the same time do not disturb each other",
"When a pool of schemas, one per request, serves requests at the same time, and the user's functions called for one request change nothing that the functions, values and context of another see, then every request answers, under every interleaving of the calls of user functions, byte for byte what it answers when served alone; serving the requests one after the other is one of the interleavings.",
"all numbers of requests, all schemas and requests, all user functions over an arbitrary shared world, all interleavings of their calls",
"All interleavings: a test runs a few schedules of a few requests.",
["copy_schema.go:Copy",R+":Resolve","method_resolver.go:resolveField"])
p("C72","Copies introspect like themselves, whatever is asked of others",
"After any program of Parse, Copy and introspection requests on any of the schemas, the fields a schema lists for a type are the visible fields of that type in that schema, and asking one schema never changes the answers of another.",
"all programs of Parse, Copy (of copies too) and requests for fields below __schema and __type, all schemas",
"All histories over a growing set of schemas that share memory.",
["copy_schema.go:Copy","copy_schema.go:copy","inject_schema.go:injectQLTypes","inject_schema.go:getQLSchema"])
p("C73","Different schemas can be used at the same time",
"Requests running at the same time on different schemas, copies of one another or not, write to no common memory, unless both are traced or introspect and the schemas go back to one parsed schema.",
"all programs of Parse, Copy and requests before, all pairs of schemas, all kinds of requests",
"All histories and pairs; a race shows up only in some schedules.",
["copy_schema.go:Copy","copy_schema.go:copy",R+":Resolve","inject_schema.go:getQLSchema"])
p("C74","Selections behind list arguments have no effect",
"A request is answered exactly - response, errors, effects - as the request in which the selection set of every field whose arguments end in a list literal (the last argument is a list, or an object whose last value is one, and so on) is not written; every text has such a counterpart. So a function with a list argument that returns an object answers null with the error that a selection is missing, whatever was selected.",
"all schemas and data, all documents with such selections anywhere (operations, fragments, nested), all texts of them",
"All documents: the selections may sit anywhere and be of any size, and the claim compares two requests.",
[R+":resolveField",R+":resolveFieldDataValue",B+":parseSelectionSet"])
p("C75","The accepted language is exactly the documented grammar",
"A text is parsed without errors if and only if it is a text of a document in the grammar (tokens, layout, separators, token sequences); it then compiles to the encoding of a document whose text it is; every other text is answered with at least one parse error. Acceptance does not depend on the operation name asked for, and no text has two readings.",
"all byte strings (and all operation names)",
"Both directions range over all byte strings; that nothing outside the grammar is accepted cannot be tested by examples.",
[B+":ParseQueryToBytecode",B+":parseOperatorOrFragment",B+":parseSelectionSet",B+":parseInputValue",B+":parseStringInputValue",B+":parseNumberInputValue"])
p("C76","Every byte string has its answer",
"Whatever bytes are sent as a query: if they are no text of the grammar, the data is empty, nothing is executed and at least one error with the line and column of a position of the text is answered; if they are but none of the operations is the one asked for, the data is empty, nothing is executed and the one error says so; otherwise the chosen operation of the one document the text spells is executed, Resolve ends without a panic and its response is JSON. A text shorter than 2^28 bytes spells at most one document.",
"all byte strings as query (executed ones below 2^28 bytes), all operation names, variables, schemas and data",
"Quantifies over all byte strings; every request a server can get.",
[R+":Resolve",B+":ParseQueryToBytecode",R+":resolveOperation"])
p("C77","What an interface field holds",
"A field of interface type shows the struct it holds as the registered implementation of that Go type, whether the interface value holds the struct itself or a pointer to it.",
"all schemas, interface values and selections",
"Any Go value that implements the interface can be stored at run time; tests try a few.",
[R+":resolveFieldDataValue","interfaces.go:Implements","parse.go:check"])
p("C78","Introspection shows the arguments of interface fields",
"Introspection of an interface type shows for each field exactly the arguments that the interface's method takes, as it does for the structs that implement it.",
"all accepted programs, all interface types reachable from the roots, all their methods",
"All Go programs; a test sees one interface.",
["parse.go:checkFunctionIns","parse.go:checkFunction","parse.go:check","inject_schema.go:objToQLType","inject_schema.go:getObjectArgs"])
p("C79","Functions are only called with inputs their signatures admit",
"Whatever request is answered: nothing but calls of functions changes the world; every function called is the function of a field, or a directive, of the schema; and in every call each declared parameter has a value of its Go type - integers in range of their width, an enum of kind string empty or one of the registered values, a pointer nil or a value of its element type, a list of values of the element type, a struct with values of its field types - and all other fields of the input structs are zero.",
"all requests (any bytes as query, any variables), all schemas and data, all calls of each request",
"All requests, including those that make the interpreter lose its place in the bytecode; a test sees the calls of a few requests.",
[R+":resolveField",R+":callQlMethod",R+":resolveFieldDataValue",R+":bindInputToGoValue",R+":bindJSONToValue",R+":bindOperatorArgumentTo"])
p("C80","Every error is explained and located",
"Whatever request is answered: each error that execution reports has one of the listed texts (a value is refused because a selection is missing or not allowed, an argument is refused for a listed reason, the function of a field returned it, the request's context is cancelled, the field does not exist on the type, a directive or fragment is not known or has refused arguments) and its path is the path of a value in the response, or of a key directly below an object of the response. A field whose arguments are refused reports exactly one error. If nothing was executed, the world is unchanged, the data is empty and the errors are those of the parser, or one error that no operation was chosen or that the operation is of an unsupported kind.",
"all requests (any bytes as query, any variables), all schemas and data",
"All requests and all errors; tests look at chosen error messages.",
[R+":Resolve",R+":resolveSelectionSet",R+":resolveField",R+":callQlMethod",R+":resolveFieldDataValue",R+":bindInputToGoValue"])

p("C81","Selections run one after the other",
"The selections of an operation (in particular the fields of a mutation) are executed one after the other, in the order they are written: the answer to an operation with selections A followed by B has the members, the errors and the effects of A alone, followed by those of B executed in the state A left behind. B may be left out only if A reported an error, and then nothing of B is executed at all.",
"all served requests, all ways to divide the selections of the operation in two, all data and functions, all worlds",
"All operations, all divisions, arbitrary side effects of user functions; tests check the order for chosen mutations.",
[R+":resolveSelectionSet",R+":resolveOperation",R+":resolveField"])

p("C82","The order of definitions does not matter",
"Two requests whose documents contain the same operations and fragments (fragments with distinct names) in different order, and that select the same operation with the same variables, get the same response, the same errors and have the same effects. (Served documents: no spread is eclipsed by an earlier fragment with a longer name, C18.)",
"all served requests, all permutations of the definitions of the document, all data, functions and worlds",
"All documents and all permutations.",
[R+":resolveSpread",R+":Resolve",B+":ParseQueryToBytecode"])

p("C83","The order of arguments does not matter",
"If a request is answered without errors, then every served request that differs from it only in the order in which the arguments of fields and directives are written (each argument given once; fragments included) is answered without errors, with the same data and the same effects.",
"all served requests below the depth limit, all reorderings of arguments at any depth, all data, functions and worlds",
"All requests and all permutations of all argument lists.",
[R+":callQlMethod",R+":bindInputToGoValue",R+":resolveDirective"])

p("C84","Aliases only rename keys",
"If no function asks for its path, two served requests that differ only in the aliases of their fields (at any depth, fragments included) have the same effects and get the same data, except that each key is that of the field in the same place, and the same errors in the same order, with the same messages, each at the path of the same place.",
"all served requests, all renamings of response keys at any depth, all data and functions that do not use their path, all worlds",
"All requests and all renamings.",
[R+":resolveField",R+":resolveSelectionSet",B+":parseSelectionSet"])

p("C85","Strings given to functions belong to the request",
"A string argument written in the query has, as long as the request runs, exactly the bytes the query says, whatever requests the schema answered before. It is not a copy: a function that keeps the string sees it change when the schema answers its next request (the bytes become those the next request's bytecode has at the same place), unless the memory was replaced by a larger one, after which it stays as it is for ever.",
"all histories of requests on one schema, all sequences of writes the parser can make, all places of the string, all choices of the Go runtime when a slice grows",
"All histories and all buffer growths; the change happens after the request a test looks at.",
["resolver.go:b2s",R+":assignStringToValue",R+":bindInputToGoValue",B+":ParseQueryToBytecode",B+":NewParserCtx"])

p("C86","The example backend keeps its todos",
"The todo backend of examples/relay behaves like a list of todos whose titles are values: creating appends a todo with a new id, updating changes exactly the given fields of the one todo with that id, deleting removes exactly that todo, unknown ids change nothing and are answered with an error or null, and no two todos ever have one id. A title that was stored stays as it is until it is updated.",
"all histories of requests to the example's schema (at most 2^64-4 creations), all titles, ids and buffer growths",
"All histories; the lost title shows only after a later request, of suitable length.",
["examples/relay/backend/schema.go:ResolveCreateTodo","examples/relay/backend/schema.go:ResolveUpdateTodo","examples/relay/backend/schema.go:ResolveDeleteTodo","examples/relay/backend/schema.go:ResolveTodo",R+":b2s"])

p("C87","A response body stays as it is",
"The body that HandleRequest returns is, when it returns, exactly the response to that request, whatever the schema answered before. It stays so: later requests on the same schema do not change it, nor do requests that other copies of the schema answer at the same time.",
"all histories of requests (single, batch, refused) on one schema; all interleavings of the single writes of any number of copies; all buffer growths",
"All histories and interleavings; the change happens after the request a test looks at.",
["implement_helpers.go:HandleRequest",R+":Resolve",R+":write","copy_schema.go:Copy","parse.go:NewSchema"])

p("C88","Only a fault of the request ends an operation",
"The fields that follow a field are executed whatever its function does: an error that a function returns, and a request context that is done, end nothing but the field they occur in, and the rest of the operation is executed and answered. Fields are left out only if the last error reported is a fault of the request itself: a field, fragment or directive that does not exist, arguments that are refused, a selection that is missing or not allowed, nesting beyond MaxDepth, an operation that is not supported; and not below a list. Conversely, a selection that the schema refuses before any function is called or any list or pointer is followed ends the operation: what is written behind it has no effect and leaves no trace in the response.",
"all schemas, data, functions, requests and splits of the selections of the operation",
"All behaviours of all functions at once, and all positions of the failing selection.",
[R+":resolveSelectionSet",R+":resolveField",R+":resolveFieldDataValue",R+":resolveDirective"])

p("C89","The diff an assertion shows is a correct unified diff",
"For any two texts (and any two lists of lines given to the diff functions), computing the diff neither panics nor runs forever, and the result is a unified diff: applied to the lines of the expected text at the line numbers it names, it yields the lines of the actual text; every hunk header gives the right first lines and line counts, lines marked with a blank are in both, lines marked with - only in the expected and lines marked with + only in the actual text, and between hunks both texts are the same.",
"all pairs of texts and of lists of lines, of any length",
"Off-by-one errors in ranges, context trimming and recursion show up only for particular alignments of equal and changed runs.",
[D+":GetUnifiedDiffString",D+":WriteUnifiedDiff",D+":GetGroupedOpCodes",D+":GetOpCodes",D+":GetMatchingBlocks",D+":SplitLines","assert/assert.go:diff"])

p("C90","The diff is empty exactly for equal texts, and loses nothing",
"The diff of two texts is empty if and only if the texts are the same; and two different actual texts never have the same diff against the same expected text.",
"all expected and actual texts",
"Pairs of texts that are wrongly shown as equal, or with the same diff, cannot be found by trying some.",
[D+":GetUnifiedDiffString",D+":SplitLines","assert/assert.go:diff"])

p("C91","The diff keeps what the texts have in common",
"A match found between two ranges of lines is the longest there is, of these the first in the expected text, and of these the first in the actual text; so the diff leaves at least as many lines unmarked as any run of lines common to both texts has.",
"all pairs of texts, all ranges",
"All runs of lines common to both texts are compared with the one chosen.",
[D+":findLongestMatch",D+":chainB",D+":GetMatchingBlocks"])

p("C92","Type conditions that decide nothing do nothing",
"An inline fragment without directives, at any depth, may be replaced by its selections where every object the schema permits is of its type, and removed where none is (below a field: the types the field leads to, for an interface any implementation; below an inline fragment: only its type): response, errors and effects stay the same.",
"all served requests, all such replacements at any depth in operation and fragments, all schemas, data, functions and worlds",
"All requests and all replacements; a test compares a few pairs.",
[R+":resolveSpread",R+":resolveSelectionSet",B+":parseSelectionSet"])

p("C93","Additions to a schema change no old answer",
"Adding fields to object types, implementations to interfaces, and object types, interfaces, enums, input types and directives to a schema, changes neither response nor errors nor effects of any request that selects no field with the (32-bit) name hash of a new field and uses no directive with the name of a new one. Interfaces that exist already may get implementations of which there are no values yet.",
"all served requests, all such additions at any place between the old fields, all closed schemas, data, functions and worlds",
"All requests and all additions; a test compares a few pairs. Refuting it needs a hash collision or a lookup by position.",
[R+":resolveField",R+":resolveSelectionSet",R+":resolveSpread","parse.go:Parse","directives.go:RegisterDirective"])

p("C94","The order assertions of the assert package are an order",
"assert.Greater, GreaterOrEqual, Less and LessOrEqual pass exactly if both values are integers, floats or strings of one kind and ordered so (strings by bytes, nothing is ordered with a NaN); that is a strict order, total within each kind. Otherwise they fail with exactly one report that shows the message given; Positive and Negative do so by comparing with the zero of the type. None of them panics.",
"all Go values, all messages",
"All pairs of values of all kinds; a test tries some.",
["assert/assertion_compare.go:compare","assert/assertion_compare.go:compareTwoValues","assert/assertion_compare.go:Greater","assert/assertion_compare.go:Positive"])

p("C95","Tolerances of the assert package",
"assert.InDelta passes exactly for two numbers that differ by at most delta (up to one step of float64), InDeltaSlice and InDeltaMapValues exactly for slices of one length (maps with the same keys) of such numbers, InEpsilon for numbers whose difference relative to the expected one is at most epsilon, InEpsilonSlice for slices of those. Otherwise they fail with one report; they never panic.",
"all Go values, tolerances and roundings of exact results that respect the order",
"All numbers, tolerances, slices and maps; a test tries some.",
["assert/assert.go:InDelta","assert/assert.go:InDeltaSlice","assert/assert.go:InDeltaMapValues","assert/assert.go:InEpsilon","assert/assert.go:InEpsilonSlice","assert/assert.go:toFloat","assert/assert.go:calcRelativeError"])

p("C96","Opposite assertions are opposite",
"Of Nil and NotNil, Empty and NotEmpty, Zero and NotZero, True and False, and (unless an argument is a function) Equal and NotEqual exactly one passes and the other one fails with one report. Empty passes exactly for nil, zeros, collections without elements, pointers to such, and structs of zeros. What is nil or zero is empty.",
"all Go values that lead to finite structures",
"All values; a test tries some.",
["assert/assert.go:isNil","assert/assert.go:isEmpty","assert/assert.go:Zero","assert/assert.go:NotZero","assert/assert.go:Equal","assert/assert.go:NotEqual"])

p("C97","A failure report shows everything",
"The text of a failure report consists of all its sections in order, each with its label, filled up to the longest label, and all lines of its content, starting in the same column. Its first section names the places of the calls from the assertion out to the test, without those of libraries. Its last section is the message the user asked for: a text as it stands, another value in the format %+v, or several values formatted by the first.",
"all labels and contents",
"All texts; the failure needs a line of 64 KiB.",
["assert/assert.go:labeledOutput","assert/assert.go:indentMessageLines","assert/assert.go:callerInfo","assert/assert.go:isTest","assert/assert.go:messageFromMsgAndArgs","assert/assert.go:Fail"])

p("C98","A diff shows every change with one line of context and nothing else",
"In the diff an assertion shows, every line that is not marked as a change is directly before or after one that is; a hunk that starts or stops with a change starts or stops where the texts do (otherwise the neighbouring line is shown); and two hunks are never adjacent: lines are left out between them.",
"all pairs of texts",
"The hunks come out of a chain of fixups whose interplay depends on the lengths of all common runs.",
[D+":GetGroupedOpCodes",D+":GetMatchingBlocks",D+":GetOpCodes",D+":WriteUnifiedDiff"])

p("C99","The error and panic assertions of the assert package",
"NoError passes exactly for nil, Error for every other error, EqualError for errors with that text; ErrorIs passes exactly if the error or one it wraps is the target or claims to be, NotErrorIs exactly otherwise; ErrorAs finds the first error that fits; Panics passes exactly if the function panics. A failure is reported once, with the message given, and a failed ErrorIs or NotErrorIs lists the texts of the whole chain in order.",
"all errors and chains of any length, all targets, all functions",
"Chains have any length, and Is methods are arbitrary.",
["assert/assert.go:NoError","assert/assert.go:EqualError","assert/assert.go:ErrorIs","assert/assert.go:NotErrorIs","assert/assert.go:ErrorAs","assert/assert.go:Panics","assert/assert.go:buildErrorChainString"])

out = os.path.join(os.path.dirname(__file__), "..", "properties.jsonl")
with open(out, "w") as f:
    for x in P: f.write(json.dumps(x, ensure_ascii=False) + "\n")
print(len(P), "properties")
