{"id": "C01", "title": "Query parsing always terminates and never panics", "statement": "For every byte sequence passed as a query and every operation target, parsing returns (no index-out-of-range, no endless loop); it yields either bytecode or a non-empty error list.", "quantifier": "all byte strings (any length, any bytes incl. NUL / invalid UTF-8) and all optional operation targets", "why_tests_cant": "The repo only injects a few characters at each offset of a few queries; the claim is about every byte string.", "anchors": ["bytecode/bytecode.go:ParseQueryToBytecode", "bytecode/bytecode.go:parseOperatorOrFragment", "bytecode/bytecode.go:parseSelectionSet", "bytecode/bytecode.go:parseInputValue", "bytecode/bytecode.go:mightIgnoreNextTokens"]}
{"id": "C02", "title": "Well-formed documents compile to the right bytecode", "statement": "For every document of the supported grammar, in every token layout (whitespace, line endings, comments, optional commas), parsing reports no error and the bytecode is exactly the documented instruction encoding of that document.", "quantifier": "all documents (any number of operations/fragments, any nesting depth, any values) and all layouts", "why_tests_cant": "Tests compare a few dozen literal queries; grammar nesting and layouts are unbounded.", "anchors": ["bytecode/bytecode.go:parseOperatorOrFragment", "bytecode/bytecode.go:parseSelectionSet", "bytecode/bytecode.go:parseAssignmentSet", "bytecode/bytecode.go:parseInputValue", "bytecode/bytecode.go:parseDirectives", "bytecode/bytecode_instructions.go", "bytecode/testing_framework.go:toBytes"]}
{"id": "C03", "title": "Layout never changes meaning", "statement": "Two texts of the same document that differ only in ignored tokens (spaces, tabs, CR/LF, comments) and optional commas parse to the same bytecode and the same fragment table.", "quantifier": "all documents, all pairs of layouts", "why_tests_cant": "Infinite family of layouts.", "anchors": ["bytecode/bytecode.go:mightIgnoreNextTokens", "bytecode/bytecode.go:isIgnoredToken", "bytecode/bytecode.go:parseComment"]}
{"id": "C04", "title": "Operation selection", "statement": "Without an operation name the last operation of the document is executed; with an operation name exactly the (last) operation carrying that name is executed, and if none carries it the response is empty data plus a 'no operator' error.", "quantifier": "all documents with any number of operations and fragments, all target names", "why_tests_cant": "Needs all operation lists and all names.", "anchors": ["bytecode/bytecode.go:parseOperatorOrFragment", "resolver.go:Resolve"]}
{"id": "C05", "title": "Parse-error locations", "statement": "Every parse error carries line = 1 + number of line terminators (LF, CR, CRLF counted once) before the parser position and column = number of bytes since the last terminator.", "quantifier": "all byte strings and all positions", "why_tests_cant": "All mixes of CR, LF and CRLF at all positions.", "anchors": ["bytecode/bytecode.go:err", "bytecode/bytecode.go:ErrorWLocation"]}
{"id": "C06", "title": "Accepted queries always compile to well-formed bytecode", "statement": "Whenever parsing reports no error, the bytecode produced is the encoding of some document, and every recorded fragment position points at a fragment of it.", "quantifier": "all byte strings accepted by the parser", "why_tests_cant": "Soundness over all accepted inputs, not over a sample.", "anchors": ["bytecode/bytecode.go:ParseQueryToBytecode", "bytecode/bytecode.go:parseSelectionSet", "bytecode/bytecode.go:parseInputValue"]}
{"id": "C07", "title": "Name and directive-count limits are exact", "statement": "A name of 1..254 characters is accepted and stored unchanged, a longer one is rejected with an error; up to 255 directives on one element are accepted and counted exactly, more are rejected.", "quantifier": "all names of any length, all directive lists", "why_tests_cant": "Boundary must hold for all names, not just one repeat count.", "anchors": ["bytecode/bytecode.go:parseAndWriteName", "bytecode/bytecode.go:parseDirectives"]}
{"id": "C08", "title": "String literals carry their decoded value", "statement": "A quoted string literal compiles to exactly its content with escapes decoded, and the resolver receives exactly those bytes.", "quantifier": "all string contents and all escape spellings", "why_tests_cant": "All byte contents and escapes.", "anchors": ["bytecode/bytecode.go:parseStringInputValue", "resolver.go:bindInputToGoValue"]}
{"id": "C09", "title": "Number literals keep their digits", "statement": "An integer or float literal compiles to the same number: sign, digits, fraction and exponent are preserved, '+' and '_' are dropped, and the int/float classification is exactly 'has a fraction or an exponent'.", "quantifier": "all integer and float literals, all following tokens", "why_tests_cant": "Unbounded digit strings and followers.", "anchors": ["bytecode/bytecode.go:parseNumberInputValue"]}
{"id": "C10", "title": "The query cache is transparent", "statement": "For every history of parses on one context, the outcome (bytecode, fragment table, target, errors) of parsing a query is the same as on a fresh context with the cache disabled.", "quantifier": "all finite histories of (query, target) parses, all eviction choices", "why_tests_cant": "History dependent: only long interleavings of cached and uncached queries can expose it.", "anchors": ["bytecode/bytecode.go:ParseQueryToBytecode", "bytecode/cache/bytecode_cache.go:GetEntry", "bytecode/cache/bytecode_cache.go:SetEntry"]}
{"id": "C11", "title": "The query cache is bounded", "statement": "After every history of parses the cache holds at most 100 different query lengths and at most 20 entries per length.", "quantifier": "all histories and all eviction choices (Go map iteration order)", "why_tests_cant": "Random map iteration order and unbounded histories.", "anchors": ["bytecode/cache/bytecode_cache.go:SetEntry"]}
{"id": "C12", "title": "The query cache never serves another query", "statement": "A cache hit is only ever returned for the very same query bytes and the very same operation target, and returns the bytecode stored by the most recent store for that pair.", "quantifier": "all histories, all queries, all targets", "why_tests_cant": "Needs all histories incl. equal-length queries and evictions.", "anchors": ["bytecode/cache/bytecode_cache.go:GetEntry", "bytecode/cache/bytecode_cache.go:SetEntry"]}
{"id": "C13", "title": "JSON string encoding is correct", "statement": "Every Go string is written as a valid JSON string literal whose JSON decoding is the string itself, each byte of invalid UTF-8 being replaced by U+FFFD.", "quantifier": "all byte strings", "why_tests_cant": "All byte strings incl. malformed UTF-8.", "anchors": ["helpers/encodeString.go:StringToJSON"]}
{"id": "C14", "title": "Responses are well-formed JSON", "statement": "Whatever the query, the response body written by Resolve is a well-formed JSON document.", "quantifier": "all queries, schemas, resolver results, variables", "why_tests_cant": "All error paths at all nesting positions.", "anchors": ["resolver.go:Resolve", "resolver.go:resolveField", "resolver.go:resolveFieldDataValue", "resolver.go:resolveSelectionSet"]}
{"id": "C15", "title": "Every reported error reaches the response", "statement": "With metadata enabled the response's errors array lists exactly the errors returned by Resolve, in order, each with its message, and no errors key is present when there are none.", "quantifier": "all error lists", "why_tests_cant": "Any number and kind of errors.", "anchors": ["resolver.go:Resolve"]}
{"id": "C16", "title": "Response data mirrors the selection", "statement": "For every query whose arguments bind without error, the data object has exactly the selected, not skipped response keys in query order (fragments expanded in place) each with the value of that field.", "quantifier": "all documents, schemas and value trees", "why_tests_cant": "Recursive over unbounded query/value trees.", "anchors": ["resolver.go:resolveSelectionSet", "resolver.go:resolveField", "resolver.go:resolveSpread", "resolver.go:resolveFieldDataValue"]}
{"id": "C17", "title": "skip and include directives", "statement": "A field or fragment carrying @skip(if:true) or @include(if:false) contributes nothing to the response and its resolver is not called; otherwise it is resolved as if the directive were absent.", "quantifier": "all documents, positions and directive lists", "why_tests_cant": "Any combination/position of directives.", "anchors": ["resolver.go:resolveDirective", "resolver.go:resolveField", "resolver.go:resolveSpread", "parse.go:NewSchema"]}
{"id": "C18", "title": "Fragment spreads select the named fragment", "statement": "A spread ...Name expands to the fragment defined with exactly that name.", "quantifier": "all fragment tables and names", "why_tests_cant": "All name sets incl. names that are prefixes of each other, in any order.", "anchors": ["resolver.go:resolveSpread"]}
{"id": "C19", "title": "Query execution terminates", "statement": "Resolve returns for every accepted query over finite data.", "quantifier": "all documents incl. fragment graphs with cycles", "why_tests_cant": "A diverging run cannot be observed by a test; termination ranges over all documents.", "anchors": ["resolver.go:resolveSpread", "resolver.go:resolveSelectionSet"]}
{"id": "C20", "title": "Fields are looked up by name", "statement": "A selected field name resolves to the struct field or method registered under exactly that name, and an unregistered name yields the 'does not exists on' error.", "quantifier": "all field names and all types", "why_tests_cant": "Lookup goes through a 32-bit hash: only a proof over all names can rule out or exhibit confusion.", "anchors": ["resolver.go:resolveField", "parse.go:getObjKey", "parse.go:check"]}
{"id": "C21", "title": "The depth limit is enforced", "statement": "No object nested MaxDepth or more levels deep is resolved; such a field is null with a 'reached max dept' error.", "quantifier": "all nesting depths, all MaxDepth settings, objects reached directly or through interfaces", "why_tests_cant": "Counter arithmetic over all depths.", "anchors": ["resolver.go:resolveFieldDataValue"]}
{"id": "C22", "title": "Each field is resolved against its own parent value", "statement": "Resolving a nested field never changes the Go value against which later sibling or ancestor fields are resolved.", "quantifier": "all queries and nesting depths", "why_tests_cant": "Value stack has 256 slots addressed by a wrapping uint8; only unbounded depth shows it.", "anchors": ["resolver.go:getGoValue", "resolver.go:setNextGoValue", "resolver.go:resolveFieldDataValue"]}
{"id": "C23", "title": "Integer literals are delivered exactly or rejected", "statement": "An integer literal bound to a Go integer parameter of any width and signedness is delivered as exactly that integer, or the request reports an error; never a wrapped value.", "quantifier": "all integer literals, all integer kinds", "why_tests_cant": "All values around all width boundaries.", "anchors": ["resolver.go:bindInputToGoValue"]}
{"id": "C24", "title": "Integer variables are delivered exactly or rejected", "statement": "A JSON number supplied through variables and bound to a Go integer parameter of any width and signedness is delivered exactly or reported as error.", "quantifier": "all JSON integers, all integer kinds", "why_tests_cant": "All values around all width boundaries.", "anchors": ["resolver.go:bindJSONToValue"]}
{"id": "C25", "title": "Argument values arrive as written", "statement": "Each argument literal (scalars, enums, null, lists, nested objects, in any order and number) is delivered to the resolver function as written, and execution continues right after the argument list.", "quantifier": "all argument lists, all value trees", "why_tests_cant": "Unbounded nested values and positions.", "anchors": ["resolver.go:callQlMethod", "resolver.go:walkInputObject", "resolver.go:bindInputToGoValue"]}
{"id": "C26", "title": "Unknown arguments are rejected before the resolver runs", "statement": "If a call carries an argument the resolver does not declare, or one whose value cannot be bound, the resolver function is not called and an error is reported.", "quantifier": "all argument lists and schemas", "why_tests_cant": "All positions of the bad argument.", "anchors": ["resolver.go:callQlMethod", "resolver.go:bindInputToGoValue"]}
{"id": "C27", "title": "Enum values round trip", "statement": "An enum value is written as the registered key of that Go value and a key supplied as argument (literal, string or variable) is delivered as the Go value registered under it; unknown keys are rejected.", "quantifier": "all enum tables and values", "why_tests_cant": "All tables, all keys.", "anchors": ["resolver.go:resolveFieldDataValue", "resolver.go:bindInputToGoValue", "resolver.go:assignStringToValue", "resolver.go:bindJSONToValue", "enums.go:registerEnumCheck"]}
{"id": "C28", "title": "Error paths name the failing field", "statement": "The path attached to an execution error is the response path (aliases and list indices from the root) of the field being resolved when it occurred, and the path is restored after every field.", "quantifier": "all queries, all error positions", "why_tests_cant": "All nesting shapes and error positions.", "anchors": ["resolver.go:err", "resolver.go:resolveField", "resolver.go:resolveFieldDataValue", "resolver.go:GetPath"]}
{"id": "C29", "title": "Variables bind by name with defaults", "statement": "A variable reference delivers the value supplied for it in the variables object, else its declared default, else an error; an undeclared variable is an error.", "quantifier": "all variable definition lists, all supplied objects", "why_tests_cant": "All definition lists and orders.", "anchors": ["resolver.go:findOperatorArgument", "resolver.go:bindOperatorArgumentTo", "resolver.go:bindExternalVariableValue"]}
{"id": "C30", "title": "Cancelled contexts stop data", "statement": "Once the request context reports an error, every further resolver-function field yields null and an error instead of its value.", "quantifier": "all queries, all cancellation points", "why_tests_cant": "All cancellation points.", "anchors": ["resolver.go:resolveFieldDataValue"]}
{"id": "C31", "title": "Time values round trip", "statement": "A time.Time written in a response parses back (as argument) to the same instant at millisecond precision.", "quantifier": "all times and time zones", "why_tests_cant": "All instants and zones.", "anchors": ["helpers/time.go:TimeToIso8601String", "helpers/time.go:ParseIso8601String"]}
{"id": "C32", "title": "Go names map to GraphQL names as documented", "statement": "A Go field name is lower-cased on its first letter unless its second character is not a lower-case letter; the mapping is idempotent, gives a valid GraphQL name to every exported ASCII Go name and different names to different ones; a gq tag overrides it, and a tag name or modifier that is not valid is rejected.", "quantifier": "all identifiers starting with an ASCII character, all tags", "why_tests_cant": "All identifiers.", "anchors": ["parse.go:formatGoNameToQL", "parse.go:validGraphQlName", "parse.go:parseFieldTagGQ"]}
{"id": "C33", "title": "Directive registration is atomic and unique", "statement": "After any sequence of RegisterDirective calls no location has two directives of the same name, and a call that returns an error leaves the schema unchanged.", "quantifier": "all sequences of registrations", "why_tests_cant": "All sequences/locations.", "anchors": ["directives.go:RegisterDirective", "directives.go:checkDirective"]}
{"id": "C34", "title": "Registration is closed after Parse", "statement": "After Parse succeeded, RegisterEnum and RegisterDirective always fail and change nothing; before Parse, Resolve always fails with 'invalid setup'.", "quantifier": "all histories of API calls", "why_tests_cant": "All call orders.", "anchors": ["directives.go:RegisterDirective", "enums.go:RegisterEnum", "parse.go:Parse", "resolver.go:Resolve"]}
{"id": "C35", "title": "Introspected field lists do not depend on history", "statement": "Asking __schema/__type for the fields of a type returns the fields of that type, whatever introspection queries ran before.", "quantifier": "all sequences of introspection queries, all schemas", "why_tests_cant": "History dependent memo table.", "anchors": ["inject_schema.go:getQLSchema", "inject_schema.go:objToQLType"]}
{"id": "C36", "title": "Tracing type notation", "statement": "The returnType reported by tracing is the GraphQL notation of the field's type (list brackets and bangs in the right order).", "quantifier": "all types of any list nesting", "why_tests_cant": "All nestings.", "anchors": ["parse.go:objToQlTypeName", "inject_schema.go:objToQLType"]}
{"id": "C37", "title": "Batch requests", "statement": "A JSON array body yields a JSON array with one response per element, in order, each equal to the response of the same single request (with the errors concatenated), malformed elements yielding an error object without affecting the others.", "quantifier": "all batches", "why_tests_cant": "Any batch size and mix.", "anchors": ["implement_helpers.go:HandleRequest", "implement_helpers.go:handleSingleRequest"]}
{"id": "C38", "title": "Request body validation", "statement": "Query, operationName and variables are taken from the body exactly when present with the right JSON type (null meaning absent); any other type yields an error response and Resolve is not run.", "quantifier": "all JSON bodies", "why_tests_cant": "All shapes of bodies.", "anchors": ["implement_helpers.go:getBodyData", "implement_helpers.go:HandleRequest"]}
{"id": "C39", "title": "Context values behave like a map", "statement": "GetValue/GetValueOk return the value most recently SetValue'd for that key in this request, else the value supplied in the options, else absent.", "quantifier": "all sequences of SetValue calls, with and without supplied values", "why_tests_cant": "All call sequences.", "anchors": ["resolver.go:GetValue", "resolver.go:GetValueOk", "resolver.go:SetValue"]}
{"id": "C40", "title": "Setting the Go context works in every request", "statement": "After SetContext(c), GetContext returns c, whether or not the request was started with a context.", "quantifier": "all requests and call sequences", "why_tests_cant": "Both initial states and all sequences.", "anchors": ["resolver.go:SetContext", "resolver.go:GetContext"]}
{"id": "C41", "title": "Requests are isolated from each other", "statement": "Apart from the cache and user code, the response of a request does not depend on previous requests on the same schema, and the error list returned by a request does not change when later requests run.", "quantifier": "all histories of requests", "why_tests_cant": "Requires arbitrary request histories.", "anchors": ["resolver.go:Resolve", "bytecode/bytecode.go:ParseQueryToBytecode"]}
{"id": "C42", "title": "A copied schema behaves like the original", "statement": "Copy returns a schema that answers every query, including introspection, exactly like the original, with the same cache rules.", "quantifier": "all schemas and queries", "why_tests_cant": "All schemas and queries.", "anchors": ["copy_schema.go:Copy", "copy_schema.go:copy"]}
{"id": "C43", "title": "Null-able Go values", "statement": "Nil pointers, nil slices, nil func fields and nil interfaces are written as null; a non-nil list is written with one entry per element in order; integers with the ID tag are quoted.", "quantifier": "all value trees", "why_tests_cant": "All value trees.", "anchors": ["resolver.go:resolveFieldDataValue", "resolver.go:valueToJSON"]}
{"id": "C44", "title": "Typename and interface dispatch", "statement": "__typename yields the GraphQL name of the runtime object type, and a value in an interface field is resolved as its registered implementation (null when unregistered).", "quantifier": "all implementations and values", "why_tests_cant": "All registration sets.", "anchors": ["resolver.go:resolveField", "resolver.go:resolveFieldDataValue", "interfaces.go:Implements"]}
{"id": "C45", "title": "Length fields round trip", "statement": "A 32-bit length written into the bytecode at some position is read back unchanged and no other byte changes.", "quantifier": "all uint32 values, all buffers, all positions", "why_tests_cant": "2^32 values times all positions.", "anchors": ["bytecode/bytecode.go:writeUint32", "bytecode/testing_framework.go:writeUint32At", "resolver.go:readUint32"]}
{"id": "C46", "title": "Resolver errors do not hide data", "statement": "If a resolver function returns an error next to a value, the error is appended to the error list once (with path) and the value is still written.", "quantifier": "all resolver outcomes and positions", "why_tests_cant": "All outcomes.", "anchors": ["resolver.go:resolveFieldDataValue"]}
{"id": "C47", "title": "Spec-conformant fields are accepted", "statement": "A field written as in the GraphQL grammar, arguments before directives, is accepted.", "quantifier": "all fields with arguments and directives", "why_tests_cant": "All fields.", "anchors": ["bytecode/bytecode.go:parseSelectionSet"]}
{"id": "C48", "title": "Type registration", "statement": "Parsing Go types terminates on every (also recursive) type graph, registers every reachable struct exactly once under its (renamed) name, and rejects two packages' structs of the same name.", "quantifier": "all finite Go type graphs", "why_tests_cant": "All type graphs incl. cycles.", "anchors": ["parse.go:check", "parse.go:checkStructField", "parse.go:checkFunction"]}
{"id": "C49", "title": "Resolver method naming", "statement": "A Go method is exposed exactly when it is named Resolve followed by a character that is not a lower-case letter, under its trimmed and formatted name; other methods are ignored; different methods get different names. (A method named exactly Resolve crashes Parse.)", "quantifier": "all method names", "why_tests_cant": "All method names.", "anchors": ["parse.go:checkFunction"]}
{"id": "C50", "title": "Enum registration", "statement": "Registered enum keys are valid GraphQL names, each key is registered with its value, and every other argument registers nothing (an error, or a panic in exactly the stated cases).", "quantifier": "all maps", "why_tests_cant": "All maps.", "anchors": ["enums.go:registerEnumCheck", "enums.go:RegisterEnum"]}
{"id": "C51", "title": "Introspected argument types are usable", "statement": "The type introspection reports for an argument is a type with which a variable for that argument can be declared and bound.", "quantifier": "all argument types", "why_tests_cant": "All argument types, of any pointer and list nesting.", "anchors": ["inject_schema.go:inputToQLType", "resolver.go:bindOperatorArgumentTo"]}
{"id": "C52", "title": "Introspection shows directive arguments", "statement": "__schema{directives{args}} shows every registered directive with the arguments its function declares.", "quantifier": "all directives and argument structs", "why_tests_cant": "All directives.", "anchors": ["inject_schema.go:getDirectives", "parse.go:Parse", "directives.go:checkDirective"]}
{"id": "C53", "title": "Introspection shows input object fields on every route", "statement": "The inputFields of an input object type are the fields of its Go struct, whether the type is reached through __type(name:) or through the type of an argument.", "quantifier": "all input types and all introspection routes to them", "why_tests_cant": "All types and routes.", "anchors": ["inject_schema.go:inputToQLType", "inject_schema.go:getAllQLTypes", "parse.go:checkFunctionInput"]}
{"id": "C54", "title": "Resolve never panics", "statement": "Resolve returns a response for every query text, operation name and variables, whatever options the caller sets.", "quantifier": "all requests on all schemas", "why_tests_cant": "All requests.", "anchors": ["resolver.go:Resolve", "resolver.go:bindJSONToValue"]}
{"id": "C55", "title": "Floats are JSON numbers", "statement": "A float field is written as a JSON number of the same value; infinities and NaN are written as 0.0.", "quantifier": "all float texts strconv can produce, in both formats", "why_tests_cant": "All floats.", "anchors": ["helpers/encodeFloat.go:FloatToJSON"]}
{"id": "C56", "title": "Only what the Go types offer is exposed", "statement": "A field a client can select on an object type comes from an exported Resolve method or an exported, non-embedded struct field that is not tagged gq:\"-\", under the name the tag or the Go name prescribes.", "quantifier": "all Go programs Parse accepts, all types and fields of the schema", "why_tests_cant": "All programs: one field that slips through leaks data.", "anchors": ["parse.go:check", "parse.go:checkStructField", "parse.go:parseFieldTagGQ"]}
{"id": "C57", "title": "What Parse accepts can be served", "statement": "If Parse accepts a program, then every value the resolver reaches has the shape its schema type promises: serving a request on it does not panic by a type mismatch.", "quantifier": "all Go programs Parse accepts, all requests and all values the program's functions return", "why_tests_cant": "All programs and all requests together.", "anchors": ["parse.go:Parse", "parse.go:check", "parse.go:checkFunctionInput", "resolver.go:resolveFieldDataValue"]}
{"id": "C58", "title": "Enums are recognised by their Go type", "statement": "A Go type is treated as an enum exactly if it is the type that was registered with RegisterEnum.", "quantifier": "all Go types and registered enums", "why_tests_cant": "All types.", "anchors": ["enums.go:getEnum", "parse.go:check"]}
{"id": "C59", "title": "A schema keeps answering like a new one", "statement": "Whatever requests a schema has answered before, it answers the next one as a newly parsed schema would in the same state of the program: neither the query cache, nor the parser's buffers, nor values left behind by earlier requests change a response.", "quantifier": "all histories of requests of any length, all next requests, all cache rules", "why_tests_cant": "All histories: a cache fault shows only for particular sequences of queries.", "anchors": ["resolver.go:Resolve", "bytecode/cache/cache.go:CacheRequest", "bytecode/cache/cache.go:GetEntry", "bytecode/bytecode.go:ParseQueryToBytecode"]}
{"id": "C60", "title": "Every HTTP response body is JSON", "statement": "HandleRequest answers every HTTP request with a body that is one well-formed JSON text: one response object, an array of response objects for a batch, or an error object for a malformed request.", "quantifier": "all HTTP requests (method, content type, query, form, body bytes), all histories of requests before it, all well-typed schemas", "why_tests_cant": "All requests and histories: the batch body is glued together from single responses.", "anchors": ["implement_helpers.go:HandleRequest", "implement_helpers.go:handleSingleRequest", "resolver.go:Resolve"]}
{"id": "C61", "title": "Tracing only adds", "statement": "Switching tracing on changes nothing about a request but the value of `extensions`: data, errors, the functions called and their effects are the same, and a request panics with tracing only if it does without.", "quantifier": "all schemas Parse accepts, all requests, all environments and clocks", "why_tests_cant": "All schemas and clocks: the tracing statements run inside every field and could disturb or panic on any of them.", "anchors": ["resolver.go:startTrace", "resolver.go:finishTrace", "resolver.go:resolveField", "resolver.go:Resolve", "apollo_tracing.go:tracer", "parse.go:objToQlTypeName"]}
{"id": "C62", "title": "The times in a trace are consistent", "statement": "In a trace, parsing and every field lie within the request, no duration is negative, fields are listed in the order they end and carry the type of a schema field, and the span of a field encloses those of its subfields.", "quantifier": "all schemas, requests and non-decreasing clocks", "why_tests_cant": "All clocks: wall time in tests never shows the offsets are attributed to the right field.", "anchors": ["resolver.go:startTrace", "resolver.go:finishTrace", "resolver.go:resolveField", "apollo_tracing.go:finish"]}
{"id": "C63", "title": "Traced responses are JSON", "statement": "The body of a traced response is one well-formed JSON text.", "quantifier": "all requests on schemas Parse accepts, executed or not", "why_tests_cant": "All requests: the trace is marshalled by another writer and pasted into the body.", "anchors": ["resolver.go:Resolve", "apollo_tracing.go:tracer"]}
{"id": "C64", "title": "Implements links both ways", "statement": "After any history of Implements calls, legal or not, the schema lists exactly the registered structs as implementations of an interface and exactly the registered interfaces for a struct, each once; an illegal call panics and changes nothing, a repeated one changes nothing.", "quantifier": "all histories of Implements and TypeRename calls, all Go types, all schemas Parse makes after them", "why_tests_cant": "All histories: the tables are shared by every package of a program and keyed by bare names.", "anchors": ["interfaces.go:Implements", "parse.go:check"]}
{"id": "C65", "title": "TypeRename renames that type", "statement": "After any history of TypeRename calls a type has in the schema the name of the last legal call for it, and its Go name if there was none; a name given without force is a valid GraphQL name; an illegal call panics and changes nothing; no two types get one name.", "quantifier": "all histories of TypeRename and Implements calls, all Go types, all schemas Parse makes after them", "why_tests_cant": "All histories and programs: only same-named types of different packages show what the table is keyed by.", "anchors": ["type_rename.go:TypeRename", "parse.go:check"]}
{"id": "C66", "title": "The tester tells the truth about a schema", "statement": "tester.HasType, TypeKind, HasFields and OnlyHasFields answer what the schema has: a type exists iff the schema shows it, with that kind; HasFields returns nil iff it is an object type or interface that has all the given visible fields, OnlyHasFields iff those are exactly its visible fields; whatever introspection was done before.", "quantifier": "all schemas Parse makes, all type and field names, all histories of introspection requests", "why_tests_cant": "All schemas and histories: answers come from tables that are filled by earlier requests.", "anchors": ["tester/tester.go:GetTypeByName", "tester/tester.go:HasFields", "tester/tester.go:OnlyHasFields", "inject_schema.go:getTypeByName"]}
{"id": "C67", "title": "The type list is complete and unambiguous", "statement": "__schema{types} lists exactly the object types, interfaces, input types and enums of the schema and the seven scalars, each once, sorted, with its kind, interfaces, possible types, enum values and input fields; __type(name) answers with the listed type of that name; an object type names an interface iff the interface has it as possible type; nothing depends on the order of Go's maps.", "quantifier": "all schemas Parse makes, all iteration orders of maps and outcomes of unstable sorting, all names", "why_tests_cant": "All iteration orders: a test sees one order per run, and few schemas.", "anchors": ["inject_schema.go:getAllQLTypes", "inject_schema.go:getTypeByName", "inject_schema.go:objToQLType", "grahql_types.go:scalars"]}
{"id": "C68", "title": "The directive list shows what was registered", "statement": "__schema{directives} lists, sorted, exactly one entry for each directive registered (skip and include among them), with its name and locations, whatever the order of Go's maps.", "quantifier": "all histories of registration calls, all iteration orders", "why_tests_cant": "All histories and orders: a directive is stored once per location and must be found again as one.", "anchors": ["inject_schema.go:getDirectives", "directives.go:RegisterDirective", "directives.go:ToQlDirectiveLocation"]}
{"id": "C69", "title": "The two root types differ", "statement": "Parse accepts only programs whose query and mutation types are different, so that the root types of the schema have different names.", "quantifier": "all Go programs", "why_tests_cant": "All programs: the check compares texts made from package and name.", "anchors": ["parse.go:Parse"]}
{"id": "C70", "title": "The HTTP handler answers what Resolve answers", "statement": "HandleRequest answers an HTTP request with exactly the body and errors that Resolve gives, on a new schema and in the current world, for the GraphQL request the HTTP request carries: the query and operation name as given, the variables none if the text is empty, an error when used if the text is no JSON, metadata included. The items of a batch are answered in turn, each in the world the earlier ones left, invalid items with an error response that leaves the world alone; what was answered before does not matter.", "quantifier": "every schema, every history of requests before, every HTTP request (URL, form, single body, batch, malformed), every behaviour of the outside world", "why_tests_cant": "the batch, the history and the world range over infinite sets; a test checks single requests on a fresh schema", "anchors": ["implement_helpers.go:HandleRequest", "implement_helpers.go:handleSingleRequest", "implement_helpers.go:getBodyData", "resolver.go:Resolve"]}
{"id": "C71", "title": "Requests served at the same time do not disturb each other", "statement": "When a pool of schemas, one per request, serves requests at the same time, and the user's functions called for one request change nothing that the functions, values and context of another see, then every request answers, under every interleaving of the calls of user functions, byte for byte what it answers when served alone; serving the requests one after the other is one of the interleavings.", "quantifier": "all numbers of requests, all schemas and requests, all user functions over an arbitrary shared world, all interleavings of their calls", "why_tests_cant": "All interleavings: a test runs a few schedules of a few requests.", "anchors": ["copy_schema.go:Copy", "resolver.go:Resolve", "method_resolver.go:resolveField"]}
{"id": "C72", "title": "Copies introspect like themselves, whatever is asked of others", "statement": "After any program of Parse, Copy and introspection requests on any of the schemas, the fields a schema lists for a type are the visible fields of that type in that schema, and asking one schema never changes the answers of another.", "quantifier": "all programs of Parse, Copy (of copies too) and requests for fields below __schema and __type, all schemas", "why_tests_cant": "All histories over a growing set of schemas that share memory.", "anchors": ["copy_schema.go:Copy", "copy_schema.go:copy", "inject_schema.go:injectQLTypes", "inject_schema.go:getQLSchema"]}
{"id": "C73", "title": "Different schemas can be used at the same time", "statement": "Requests running at the same time on different schemas, copies of one another or not, write to no common memory, unless both are traced or introspect and the schemas go back to one parsed schema.", "quantifier": "all programs of Parse, Copy and requests before, all pairs of schemas, all kinds of requests", "why_tests_cant": "All histories and pairs; a race shows up only in some schedules.", "anchors": ["copy_schema.go:Copy", "copy_schema.go:copy", "resolver.go:Resolve", "inject_schema.go:getQLSchema"]}
{"id": "C74", "title": "Selections behind list arguments have no effect", "statement": "A request is answered exactly - response, errors, effects - as the request in which the selection set of every field whose arguments end in a list literal (the last argument is a list, or an object whose last value is one, and so on) is not written; every text has such a counterpart. So a function with a list argument that returns an object answers null with the error that a selection is missing, whatever was selected.", "quantifier": "all schemas and data, all documents with such selections anywhere (operations, fragments, nested), all texts of them", "why_tests_cant": "All documents: the selections may sit anywhere and be of any size, and the claim compares two requests.", "anchors": ["resolver.go:resolveField", "resolver.go:resolveFieldDataValue", "bytecode/bytecode.go:parseSelectionSet"]}
{"id": "C75", "title": "The accepted language is exactly the documented grammar", "statement": "A text is parsed without errors if and only if it is a text of a document in the grammar (tokens, layout, separators, token sequences); it then compiles to the encoding of a document whose text it is; every other text is answered with at least one parse error. Acceptance does not depend on the operation name asked for, and no text has two readings.", "quantifier": "all byte strings (and all operation names)", "why_tests_cant": "Both directions range over all byte strings; that nothing outside the grammar is accepted cannot be tested by examples.", "anchors": ["bytecode/bytecode.go:ParseQueryToBytecode", "bytecode/bytecode.go:parseOperatorOrFragment", "bytecode/bytecode.go:parseSelectionSet", "bytecode/bytecode.go:parseInputValue", "bytecode/bytecode.go:parseStringInputValue", "bytecode/bytecode.go:parseNumberInputValue"]}
{"id": "C76", "title": "Every byte string has its answer", "statement": "Whatever bytes are sent as a query: if they are no text of the grammar, the data is empty, nothing is executed and at least one error with the line and column of a position of the text is answered; if they are but none of the operations is the one asked for, the data is empty, nothing is executed and the one error says so; otherwise the chosen operation of the one document the text spells is executed, Resolve ends without a panic and its response is JSON. A text shorter than 2^28 bytes spells at most one document.", "quantifier": "all byte strings as query (executed ones below 2^28 bytes), all operation names, variables, schemas and data", "why_tests_cant": "Quantifies over all byte strings; every request a server can get.", "anchors": ["resolver.go:Resolve", "bytecode/bytecode.go:ParseQueryToBytecode", "resolver.go:resolveOperation"]}
{"id": "C77", "title": "What an interface field holds", "statement": "A field of interface type shows the struct it holds as the registered implementation of that Go type, whether the interface value holds the struct itself or a pointer to it.", "quantifier": "all schemas, interface values and selections", "why_tests_cant": "Any Go value that implements the interface can be stored at run time; tests try a few.", "anchors": ["resolver.go:resolveFieldDataValue", "interfaces.go:Implements", "parse.go:check"]}
{"id": "C78", "title": "Introspection shows the arguments of interface fields", "statement": "Introspection of an interface type shows for each field exactly the arguments that the interface's method takes, as it does for the structs that implement it.", "quantifier": "all accepted programs, all interface types reachable from the roots, all their methods", "why_tests_cant": "All Go programs; a test sees one interface.", "anchors": ["parse.go:checkFunctionIns", "parse.go:checkFunction", "parse.go:check", "inject_schema.go:objToQLType", "inject_schema.go:getObjectArgs"]}
{"id": "C79", "title": "Functions are only called with inputs their signatures admit", "statement": "Whatever request is answered: nothing but calls of functions changes the world; every function called is the function of a field, or a directive, of the schema; and in every call each declared parameter has a value of its Go type - integers in range of their width, an enum of kind string empty or one of the registered values, a pointer nil or a value of its element type, a list of values of the element type, a struct with values of its field types - and all other fields of the input structs are zero.", "quantifier": "all requests (any bytes as query, any variables), all schemas and data, all calls of each request", "why_tests_cant": "All requests, including those that make the interpreter lose its place in the bytecode; a test sees the calls of a few requests.", "anchors": ["resolver.go:resolveField", "resolver.go:callQlMethod", "resolver.go:resolveFieldDataValue", "resolver.go:bindInputToGoValue", "resolver.go:bindJSONToValue", "resolver.go:bindOperatorArgumentTo"]}
{"id": "C80", "title": "Every error is explained and located", "statement": "Whatever request is answered: each error that execution reports has one of the listed texts (a value is refused because a selection is missing or not allowed, an argument is refused for a listed reason, the function of a field returned it, the request's context is cancelled, the field does not exist on the type, a directive or fragment is not known or has refused arguments) and its path is the path of a value in the response, or of a key directly below an object of the response. A field whose arguments are refused reports exactly one error. If nothing was executed, the world is unchanged, the data is empty and the errors are those of the parser, or one error that no operation was chosen or that the operation is of an unsupported kind.", "quantifier": "all requests (any bytes as query, any variables), all schemas and data", "why_tests_cant": "All requests and all errors; tests look at chosen error messages.", "anchors": ["resolver.go:Resolve", "resolver.go:resolveSelectionSet", "resolver.go:resolveField", "resolver.go:callQlMethod", "resolver.go:resolveFieldDataValue", "resolver.go:bindInputToGoValue"]}
{"id": "C81", "title": "Selections run one after the other", "statement": "The selections of an operation (in particular the fields of a mutation) are executed one after the other, in the order they are written: the answer to an operation with selections A followed by B has the members, the errors and the effects of A alone, followed by those of B executed in the state A left behind. B may be left out only if A reported an error, and then nothing of B is executed at all.", "quantifier": "all served requests, all ways to divide the selections of the operation in two, all data and functions, all worlds", "why_tests_cant": "All operations, all divisions, arbitrary side effects of user functions; tests check the order for chosen mutations.", "anchors": ["resolver.go:resolveSelectionSet", "resolver.go:resolveOperation", "resolver.go:resolveField"]}
{"id": "C82", "title": "The order of definitions does not matter", "statement": "Two requests whose documents contain the same operations and fragments (fragments with distinct names) in different order, and that select the same operation with the same variables, get the same response, the same errors and have the same effects. (Served documents: no spread is eclipsed by an earlier fragment with a longer name, C18.)", "quantifier": "all served requests, all permutations of the definitions of the document, all data, functions and worlds", "why_tests_cant": "All documents and all permutations.", "anchors": ["resolver.go:resolveSpread", "resolver.go:Resolve", "bytecode/bytecode.go:ParseQueryToBytecode"]}
{"id": "C83", "title": "The order of arguments does not matter", "statement": "If a request is answered without errors, then every served request that differs from it only in the order in which the arguments of fields and directives are written (each argument given once; fragments included) is answered without errors, with the same data and the same effects.", "quantifier": "all served requests below the depth limit, all reorderings of arguments at any depth, all data, functions and worlds", "why_tests_cant": "All requests and all permutations of all argument lists.", "anchors": ["resolver.go:callQlMethod", "resolver.go:bindInputToGoValue", "resolver.go:resolveDirective"]}
{"id": "C84", "title": "Aliases only rename keys", "statement": "If no function asks for its path, two served requests that differ only in the aliases of their fields (at any depth, fragments included) have the same effects and get the same data, except that each key is that of the field in the same place, and the same errors in the same order, with the same messages, each at the path of the same place.", "quantifier": "all served requests, all renamings of response keys at any depth, all data and functions that do not use their path, all worlds", "why_tests_cant": "All requests and all renamings.", "anchors": ["resolver.go:resolveField", "resolver.go:resolveSelectionSet", "bytecode/bytecode.go:parseSelectionSet"]}
{"id": "C85", "title": "Strings given to functions belong to the request", "statement": "A string argument written in the query has, as long as the request runs, exactly the bytes the query says, whatever requests the schema answered before. It is not a copy: a function that keeps the string sees it change when the schema answers its next request (the bytes become those the next request's bytecode has at the same place), unless the memory was replaced by a larger one, after which it stays as it is for ever.", "quantifier": "all histories of requests on one schema, all sequences of writes the parser can make, all places of the string, all choices of the Go runtime when a slice grows", "why_tests_cant": "All histories and all buffer growths; the change happens after the request a test looks at.", "anchors": ["resolver.go:b2s", "resolver.go:assignStringToValue", "resolver.go:bindInputToGoValue", "bytecode/bytecode.go:ParseQueryToBytecode", "bytecode/bytecode.go:NewParserCtx"]}
{"id": "C86", "title": "The example backend keeps its todos", "statement": "The todo backend of examples/relay behaves like a list of todos whose titles are values: creating appends a todo with a new id, updating changes exactly the given fields of the one todo with that id, deleting removes exactly that todo, unknown ids change nothing and are answered with an error or null, and no two todos ever have one id. A title that was stored stays as it is until it is updated.", "quantifier": "all histories of requests to the example's schema (at most 2^64-4 creations), all titles, ids and buffer growths", "why_tests_cant": "All histories; the lost title shows only after a later request, of suitable length.", "anchors": ["examples/relay/backend/schema.go:ResolveCreateTodo", "examples/relay/backend/schema.go:ResolveUpdateTodo", "examples/relay/backend/schema.go:ResolveDeleteTodo", "examples/relay/backend/schema.go:ResolveTodo", "resolver.go:b2s"]}
{"id": "C87", "title": "A response body stays as it is", "statement": "The body that HandleRequest returns is, when it returns, exactly the response to that request, whatever the schema answered before. It stays so: later requests on the same schema do not change it, nor do requests that other copies of the schema answer at the same time.", "quantifier": "all histories of requests (single, batch, refused) on one schema; all interleavings of the single writes of any number of copies; all buffer growths", "why_tests_cant": "All histories and interleavings; the change happens after the request a test looks at.", "anchors": ["implement_helpers.go:HandleRequest", "resolver.go:Resolve", "resolver.go:write", "copy_schema.go:Copy", "parse.go:NewSchema"]}
{"id": "C88", "title": "Only a fault of the request ends an operation", "statement": "The fields that follow a field are executed whatever its function does: an error that a function returns, and a request context that is done, end nothing but the field they occur in, and the rest of the operation is executed and answered. Fields are left out only if the last error reported is a fault of the request itself: a field, fragment or directive that does not exist, arguments that are refused, a selection that is missing or not allowed, nesting beyond MaxDepth, an operation that is not supported; and not below a list. Conversely, a selection that the schema refuses before any function is called or any list or pointer is followed ends the operation: what is written behind it has no effect and leaves no trace in the response.", "quantifier": "all schemas, data, functions, requests and splits of the selections of the operation", "why_tests_cant": "All behaviours of all functions at once, and all positions of the failing selection.", "anchors": ["resolver.go:resolveSelectionSet", "resolver.go:resolveField", "resolver.go:resolveFieldDataValue", "resolver.go:resolveDirective"]}
{"id": "C89", "title": "The diff an assertion shows is a correct unified diff", "statement": "For any two texts (and any two lists of lines given to the diff functions), computing the diff neither panics nor runs forever, and the result is a unified diff: applied to the lines of the expected text at the line numbers it names, it yields the lines of the actual text; every hunk header gives the right first lines and line counts, lines marked with a blank are in both, lines marked with - only in the expected and lines marked with + only in the actual text, and between hunks both texts are the same.", "quantifier": "all pairs of texts and of lists of lines, of any length", "why_tests_cant": "Off-by-one errors in ranges, context trimming and recursion show up only for particular alignments of equal and changed runs.", "anchors": ["assert/difflib/difflib.go:GetUnifiedDiffString", "assert/difflib/difflib.go:WriteUnifiedDiff", "assert/difflib/difflib.go:GetGroupedOpCodes", "assert/difflib/difflib.go:GetOpCodes", "assert/difflib/difflib.go:GetMatchingBlocks", "assert/difflib/difflib.go:SplitLines", "assert/assert.go:diff"]}
{"id": "C90", "title": "The diff is empty exactly for equal texts, and loses nothing", "statement": "The diff of two texts is empty if and only if the texts are the same; and two different actual texts never have the same diff against the same expected text.", "quantifier": "all expected and actual texts", "why_tests_cant": "Pairs of texts that are wrongly shown as equal, or with the same diff, cannot be found by trying some.", "anchors": ["assert/difflib/difflib.go:GetUnifiedDiffString", "assert/difflib/difflib.go:SplitLines", "assert/assert.go:diff"]}
{"id": "C91", "title": "The diff keeps what the texts have in common", "statement": "A match found between two ranges of lines is the longest there is, of these the first in the expected text, and of these the first in the actual text; so the diff leaves at least as many lines unmarked as any run of lines common to both texts has.", "quantifier": "all pairs of texts, all ranges", "why_tests_cant": "All runs of lines common to both texts are compared with the one chosen.", "anchors": ["assert/difflib/difflib.go:findLongestMatch", "assert/difflib/difflib.go:chainB", "assert/difflib/difflib.go:GetMatchingBlocks"]}
{"id": "C92", "title": "Type conditions that decide nothing do nothing", "statement": "An inline fragment without directives, at any depth, may be replaced by its selections where every object the schema permits is of its type, and removed where none is (below a field: the types the field leads to, for an interface any implementation; below an inline fragment: only its type): response, errors and effects stay the same.", "quantifier": "all served requests, all such replacements at any depth in operation and fragments, all schemas, data, functions and worlds", "why_tests_cant": "All requests and all replacements; a test compares a few pairs.", "anchors": ["resolver.go:resolveSpread", "resolver.go:resolveSelectionSet", "bytecode/bytecode.go:parseSelectionSet"]}
{"id": "C93", "title": "Additions to a schema change no old answer", "statement": "Adding fields to object types, implementations to interfaces, and object types, interfaces, enums, input types and directives to a schema, changes neither response nor errors nor effects of any request that selects no field with the (32-bit) name hash of a new field and uses no directive with the name of a new one. Interfaces that exist already may get implementations of which there are no values yet.", "quantifier": "all served requests, all such additions at any place between the old fields, all closed schemas, data, functions and worlds", "why_tests_cant": "All requests and all additions; a test compares a few pairs. Refuting it needs a hash collision or a lookup by position.", "anchors": ["resolver.go:resolveField", "resolver.go:resolveSelectionSet", "resolver.go:resolveSpread", "parse.go:Parse", "directives.go:RegisterDirective"]}
{"id": "C94", "title": "The order assertions of the assert package are an order", "statement": "assert.Greater, GreaterOrEqual, Less and LessOrEqual pass exactly if both values are integers, floats or strings of one kind and ordered so (strings by bytes, nothing is ordered with a NaN); that is a strict order, total within each kind. Otherwise they fail with exactly one report that shows the message given; Positive and Negative do so by comparing with the zero of the type. None of them panics.", "quantifier": "all Go values, all messages", "why_tests_cant": "All pairs of values of all kinds; a test tries some.", "anchors": ["assert/assertion_compare.go:compare", "assert/assertion_compare.go:compareTwoValues", "assert/assertion_compare.go:Greater", "assert/assertion_compare.go:Positive"]}
{"id": "C95", "title": "Tolerances of the assert package", "statement": "assert.InDelta passes exactly for two numbers that differ by at most delta (up to one step of float64), InDeltaSlice and InDeltaMapValues exactly for slices of one length (maps with the same keys) of such numbers, InEpsilon for numbers whose difference relative to the expected one is at most epsilon, InEpsilonSlice for slices of those. Otherwise they fail with one report; they never panic.", "quantifier": "all Go values, tolerances and roundings of exact results that respect the order", "why_tests_cant": "All numbers, tolerances, slices and maps; a test tries some.", "anchors": ["assert/assert.go:InDelta", "assert/assert.go:InDeltaSlice", "assert/assert.go:InDeltaMapValues", "assert/assert.go:InEpsilon", "assert/assert.go:InEpsilonSlice", "assert/assert.go:toFloat", "assert/assert.go:calcRelativeError"]}
{"id": "C96", "title": "Opposite assertions are opposite", "statement": "Of Nil and NotNil, Empty and NotEmpty, Zero and NotZero, True and False, and (unless an argument is a function) Equal and NotEqual exactly one passes and the other one fails with one report. Empty passes exactly for nil, zeros, collections without elements, pointers to such, and structs of zeros. What is nil or zero is empty.", "quantifier": "all Go values that lead to finite structures", "why_tests_cant": "All values; a test tries some.", "anchors": ["assert/assert.go:isNil", "assert/assert.go:isEmpty", "assert/assert.go:Zero", "assert/assert.go:NotZero", "assert/assert.go:Equal", "assert/assert.go:NotEqual"]}
{"id": "C97", "title": "A failure report shows everything", "statement": "The text of a failure report consists of all its sections in order, each with its label, filled up to the longest label, and all lines of its content, starting in the same column. Its first section names the places of the calls from the assertion out to the test, without those of libraries. Its last section is the message the user asked for: a text as it stands, another value in the format %+v, or several values formatted by the first.", "quantifier": "all labels and contents", "why_tests_cant": "All texts; the failure needs a line of 64 KiB.", "anchors": ["assert/assert.go:labeledOutput", "assert/assert.go:indentMessageLines", "assert/assert.go:callerInfo", "assert/assert.go:isTest", "assert/assert.go:messageFromMsgAndArgs", "assert/assert.go:Fail"]}
{"id": "C98", "title": "A diff shows every change with one line of context and nothing else", "statement": "In the diff an assertion shows, every line that is not marked as a change is directly before or after one that is; a hunk that starts or stops with a change starts or stops where the texts do (otherwise the neighbouring line is shown); and two hunks are never adjacent: lines are left out between them.", "quantifier": "all pairs of texts", "why_tests_cant": "The hunks come out of a chain of fixups whose interplay depends on the lengths of all common runs.", "anchors": ["assert/difflib/difflib.go:GetGroupedOpCodes", "assert/difflib/difflib.go:GetMatchingBlocks", "assert/difflib/difflib.go:GetOpCodes", "assert/difflib/difflib.go:WriteUnifiedDiff"]}
{"id": "C99", "title": "The error and panic assertions of the assert package", "statement": "NoError passes exactly for nil, Error for every other error, EqualError for errors with that text; ErrorIs passes exactly if the error or one it wraps is the target or claims to be, NotErrorIs exactly otherwise; ErrorAs finds the first error that fits; Panics passes exactly if the function panics. A failure is reported once, with the message given, and a failed ErrorIs or NotErrorIs lists the texts of the whole chain in order.", "quantifier": "all errors and chains of any length, all targets, all functions", "why_tests_cant": "Chains have any length, and Is methods are arbitrary.", "anchors": ["assert/assert.go:NoError", "assert/assert.go:EqualError", "assert/assert.go:ErrorIs", "assert/assert.go:NotErrorIs", "assert/assert.go:ErrorAs", "assert/assert.go:Panics", "assert/assert.go:buildErrorChainString"]}
