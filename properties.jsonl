{"id": "C01", "title": "A target selected by a pattern lives in a package selected by that pattern", "statement": "Whenever a bazel target pattern matches a fully qualified target, the same pattern also matches the package of that target. Hence skipping whole packages that do not match a pattern never loses a target.", "quantifier": "every pattern that can be constructed (parsed from any string in any context, parsed as visibility, or the default pattern) and every target", "why_tests_cant": "the set of patterns and targets is infinite; package pruning code relies on the implication for all of them", "anchors": ["bant/types-bazel.cc: BazelPattern::Match(const BazelTarget&), BazelPattern::Match(const BazelPackage&), BazelPattern::ParseFrom, BazelPattern::ParseVisibility"]}
{"id": "C02", "title": "Recursive patterns stop at path component boundaries and at the project border", "statement": "A pattern written `//path/...` (optionally with a project) matches a package if and only if the package belongs to the same project and its path is `path` or begins with `path/`; an empty path selects every package of the project. In particular `//foo/...` never selects `//foobar`.", "quantifier": "every project name, every pattern path and every package", "why_tests_cant": "prefix tests with boundary conditions have infinitely many near-miss inputs", "anchors": ["bant/types-bazel.cc: BazelPattern::ParseFrom, BazelPattern::Match(const BazelPackage&)"]}
{"id": "C03", "title": "Printing a target and parsing it back yields the same target", "statement": "For each target whose project, path and name are well-formed (no separators inside components), the absolute string form parses, in any context package, back to exactly that target (a form without project being completed by the project of the context, as bazel does); two different well-formed targets never print as the same string. Forms for which the round-trip breaks are exhibited.", "quantifier": "all well-formed targets and all context packages", "why_tests_cant": "a round trip law over an infinite set of strings, with several abbreviation cases (`//foo` for `//foo:foo`, `@foo` for `@foo//:foo`)", "anchors": ["bant/types-bazel.cc: BazelTarget::ToString, BazelTarget::ParseFrom, BazelPackage::ParseFrom"]}
{"id": "C04", "title": "The relative form of a target denotes the same target in its package", "statement": "For each well-formed target and each package, printing the target relative to the package and parsing the result in the context of that package gives the original target back.", "quantifier": "all well-formed targets and packages (same package, other package, other project)", "why_tests_cant": "round trip over infinite sets; buildozer edits use this form, so any exception silently edits a wrong dependency", "anchors": ["bant/types-bazel.cc: BazelTarget::ToStringRelativeTo, BazelTarget::ParseFrom"]}
{"id": "C05", "title": "`canonicalize` only suggests equivalent names and is idempotent", "statement": "For each dependency string that parses in the package of the rule to a well-formed target, `canonicalize` emits a rename exactly if the string differs from the canonical relative form; the new string denotes the same target; running on the new string emits no further edit.", "quantifier": "all dependency strings and all packages", "why_tests_cant": "idempotence and meaning preservation range over all strings", "anchors": ["bant/tool/canon-targets.cc: CreateCanonicalizeEdits", "bant/types-bazel.cc: BazelTarget::ToStringRelativeTo, BazelTarget::ParseFrom"]}
{"id": "C06", "title": "Package names parse to the package they name", "statement": "For every well-formed package the printed form parses back to the package; a parsed package never has a leading or trailing slash or an empty component in its path, never contains a `:` in its path, and never keeps a `~version` suffix in the project name.", "quantifier": "every input string / every well-formed package", "why_tests_cant": "normal form invariants over arbitrary strings", "anchors": ["bant/types-bazel.cc: BazelPackage::ParseFrom, BazelPackage::ToString"]}
{"id": "C07", "title": "Visibility specifications mean what bazel says", "statement": "`//visibility:public` matches everything, `//visibility:private` and `//p:__pkg__` match exactly the targets of the one package, `//p:__subpackages__` exactly the targets of the package and packages below it.", "quantifier": "every visibility string of one of these forms, every context package and every target", "why_tests_cant": "infinitely many packages; decision logic with overlapping cases", "anchors": ["bant/types-bazel.cc: BazelPattern::ParseVisibility, BazelPattern::Match"]}
{"id": "C08", "title": "A glob in the target position of a pattern behaves like a glob", "statement": "A pattern `//p:glob` with `*` in the target part matches exactly the targets of package p whose name matches the shell glob (each `*` any run of characters, every other character itself).", "quantifier": "every glob string and every target name", "why_tests_cant": "regular expression translation must be right for all strings, including regexp meta characters", "anchors": ["bant/types-bazel.cc: GlobbingToRE2, BazelPattern::ParseFrom, BazelPattern::Match"]}
{"id": "C09", "title": "Byte offsets translate to the right line and column", "statement": "For any file content and any byte offset in it, the reported line is the number of newlines before the offset and the column is the distance to the preceding line start; the translation is strictly monotone in the offset, and the surrounding-line lookup returns exactly the text between the neighbouring newlines.", "quantifier": "every content and every offset", "why_tests_cant": "binary search over arbitrary line tables; boundary offsets (on a newline, last line without newline) are infinitely many", "anchors": ["bant/frontend/linecolumn-map.cc: LineColumnMap::GetPos, LineColumnMap::InitializeFromStringView", "bant/frontend/named-content.cc: NamedLineIndexedContent::GetLocation, GetSurroundingLine"]}
{"id": "C10", "title": "Scanning loses nothing but blanks and comments", "statement": "The tokens delivered for a file are contiguous, non-overlapping pieces of the file in file order; the text skipped between two tokens consists only of white space, backslashes and comments that run to the end of a line; every token before the end of file is non-empty.", "quantifier": "every file content (arbitrary bytes)", "why_tests_cant": "a loop over arbitrary bytes with many cases; must hold for every input", "anchors": ["bant/frontend/scanner.cc: Scanner::Next, Scanner::SkipSpace and the Handle* functions"]}
{"id": "C11", "title": "Scanning always terminates, end-of-file is sticky and peeking is free", "statement": "Repeatedly asking for the next token reaches end-of-file after at most one request more than the file has bytes; after end-of-file every further request again answers end-of-file; peeking any number of times returns what the following request returns and does not change the sequence of tokens.", "quantifier": "every file content and every interleaving of peek and next requests", "why_tests_cant": "a temporal property over all call histories", "anchors": ["bant/frontend/scanner.cc: Scanner::Next", "bant/frontend/scanner.h: Scanner::Peek"]}
{"id": "C12", "title": "Line numbers reported for tokens are the true ones", "statement": "Whenever the scanner has delivered a token, the location lookup of that token (and of all earlier ones) reports the true line and column in the file.", "quantifier": "every file content and every prefix of the token sequence", "why_tests_cant": "the line table is filled as a side effect of five different skipping loops; each input exercises a different mix", "anchors": ["bant/frontend/scanner.cc: SkipSpace, ConsumeOptionalIn, HandleString", "bant/frontend/linecolumn-map.cc: PushNewline"]}
{"id": "C13", "title": "Words are split at word boundaries", "statement": "A word is never cut in the middle: a keyword or identifier token is never directly followed by another identifier character.", "quantifier": "every file content", "why_tests_cant": "for-all over inputs; tests only list the keywords", "anchors": ["bant/frontend/scanner.cc: HandleIdentifierKeywordRawStringOrInvalid, ConsumeOptionalIn"]}
{"id": "C14", "title": "Parsing terminates on every input", "statement": "For every file content, well-formed or garbage, the parser returns; the work (token requests) is bounded by a linear function of the number of tokens.", "quantifier": "every byte sequence", "why_tests_cant": "termination over all inputs cannot be tested", "anchors": ["bant/frontend/parser.cc: Parser::Impl::parse and the mutually recursive Parse* functions"]}
{"id": "C15", "title": "Without reported error the syntax tree has no holes; errors are never silent", "statement": "If parsing reports no error, then every place of the tree that consumers dereference (operands, list elements, assignment sides, function arguments, map entries) is filled; if some construct could not be parsed, the error flag is set and a message was emitted.", "quantifier": "every byte sequence", "why_tests_cant": "structural invariant over all parser runs", "anchors": ["bant/frontend/parser.cc: Parse*", "bant/frontend/ast.h"]}
{"id": "C16", "title": "Printing a tree and parsing it again gives the same tree", "statement": "For every syntax tree made by the parser from a file without error, the printed form parses without error to the same tree (up to positions).", "quantifier": "every parseable file", "why_tests_cant": "round trip over an infinite set of trees; `print` output is meant to be valid BUILD syntax", "anchors": ["bant/frontend/print-visitor.cc: PrintVisitor", "bant/frontend/parser.cc"]}
{"id": "C17", "title": "String literals denote the characters between their quotes", "statement": "For every string token the value given to users is exactly the text between the opening and the closing quotes, for single and triple quotes of both kinds, with or without the raw prefix.", "quantifier": "every string literal token the scanner can produce", "why_tests_cant": "quoting rules over all literals", "anchors": ["bant/frontend/ast.cc: StringScalar::FromLiteral", "bant/frontend/scanner.cc: HandleString"]}
{"id": "C18", "title": "Integer literals denote their value or are rejected", "statement": "Each decimal integer literal token gets exactly the denoted value if it fits into 64 bit signed and otherwise is reported as error; never a wrapped value.", "quantifier": "every digit string", "why_tests_cant": "arithmetic overflow boundary over unbounded strings", "anchors": ["bant/frontend/ast.cc: IntScalar::FromLiteral", "bant/frontend/parser.cc: ParseIntFromToken"]}
{"id": "C19", "title": "Elaboration computes what the expression means", "statement": "Elaborating yields the documented light evaluation: `+` of two lists of the same kind is their concatenation, `+` of two strings is the concatenated string, `+` with a list on only one side is that list, select() with a //conditions:default entry is the value of that entry, an identifier assigned before at toplevel is the value it had been assigned; everything else keeps its shape. Elaborating an expression without operators, identifiers and calls changes nothing.", "quantifier": "all expression trees and assignments", "why_tests_cant": "induction over arbitrarily nested expressions", "anchors": ["bant/frontend/elaboration.cc: NestCounter/ElaborationVisitor VisitBinOpNode, VisitFunCall, VisitIdentifier, VisitAssignment, ConcatLists, ConcatStrings"]}
{"id": "C20", "title": "Elaboration never dereferences a missing node", "statement": "Elaborating the syntax tree of any file never dereferences a null node and never treats a node as another kind than it is.", "quantifier": "every file content, including files with parse errors (which are still elaborated)", "why_tests_cant": "memory safety over all inputs", "anchors": ["bant/frontend/elaboration.cc", "bant/frontend/ast.h: BaseNodeReplacementVisitor"]}
{"id": "C21", "title": "The arena list behaves like a plain sequence", "statement": "A list filled by any sequence of append operations has as size the number of appends, returns the i-th appended element at index i, and iterates over exactly the appended elements in order; references to earlier elements remain valid and unchanged when appending.", "quantifier": "every sequence of appends, any block sizes", "why_tests_cant": "block boundaries make index arithmetic break only at particular lengths; must hold for all lengths", "anchors": ["bant/util/arena-container.h: ArenaDeque"]}
{"id": "C22", "title": "Memory handed out by the arena never overlaps", "statement": "Any two allocations from an arena are disjoint, lie in blocks owned by the arena, and earlier allocations are never moved; objects are suitably aligned.", "quantifier": "every sequence of allocation sizes and every block size", "why_tests_cant": "history property over arbitrary request sequences", "anchors": ["bant/util/arena.h: Arena::Alloc, Arena::NewBlock, Arena::New"]}
{"id": "C23", "title": "The range lookup finds the one range containing the key", "statement": "After inserting any non-empty, pairwise disjoint ranges in any order, looking up a key returns the value of exactly the range containing it, and nothing if none contains it.", "quantifier": "every sequence of disjoint ranges and every key", "why_tests_cant": "orderings and adjacent ranges are unbounded", "anchors": ["bant/util/disjoint-range-map.h: DisjointRangeMap"]}
{"id": "C24", "title": "A source location is attributed to the file it came from", "statement": "For every set of loaded files (and generated texts registered later) and every non-empty piece of text inside one of them, the project attributes the piece to that file and reports its line and column in that file.", "quantifier": "every set of files and every text position", "why_tests_cant": "combination of address range lookup and line lookup for all histories", "anchors": ["bant/frontend/parsed-project.cc: RegisterLocationRange, GetLocation, GetSurroundingLine", "bant/frontend/source-locator.cc"]}
{"id": "C25", "title": "Header lookup returns the best suffix match of the whole index", "statement": "Looking up an include path in the header index returns the exactly matching entry if there is one; otherwise an entry that shares the maximal number of trailing path components with the query among all entries of the index, provided this number reaches the required minimum, else nothing.", "quantifier": "every header index, every query path and every minimum", "why_tests_cant": "the implementation only looks at two neighbours in sort order; correctness for all indexes is an order-theoretic fact", "anchors": ["bant/explore/header-providers.cc: FindBySuffix, CommonPrefix, CommonSlashes, KeyTransform"]}
{"id": "C26", "title": "Dependency alternatives are reduced to a consistent minimal choice", "statement": "Reducing a collection of non-empty alternative sets yields non-empty, pairwise disjoint alternative sets, each of which is an intersection of input sets; choosing one element of each result satisfies every input alternative set; and no internal check fails.", "quantifier": "every collection of finite sets of targets", "why_tests_cant": "greedy set reduction for all set systems", "anchors": ["bant/tool/dwyu.cc: MinimizeDependencySet, intersect"]}
{"id": "C27", "title": "DWYU suggests removing a dependency only if it is provably unused", "statement": "A removal edit for a dependency is emitted only if all headers included by the rule's sources could be accounted for, the dependency is a known library that is not linked unconditionally, none of the included headers is provided by it, and (unless strict) its line carries no keep comment.", "quantifier": "every project, every rule, every content of sources", "why_tests_cant": "safety over all projects; each false removal breaks somebody's build", "anchors": ["bant/tool/dwyu.cc: DWYUGenerator::CreateEditsForTarget, IsAlwayslink, DependenciesNeededBySources"]}
{"id": "C28", "title": "DWYU suggests adding a dependency only if it provides a needed header and may be used", "statement": "An add edit is emitted only for a library that provides a header included by the rule's sources, that is not yet a dependency, is visible to the rule, is compatible with the rule's testonly flag, and is the only alternative left; one edit at most is emitted for each needed library.", "quantifier": "every project, every rule, every content of sources", "why_tests_cant": "safety over all projects", "anchors": ["bant/tool/dwyu.cc: DWYUGenerator::CreateEditsForTarget, CanSee, IsTestonlyCompatible"]}
{"id": "C29", "title": "Visibility check follows the declared visibility", "statement": "A library is considered visible from a rule iff they are in the same package, or some visibility entry of the library (its own or else the package default) matches the rule; missing visibility means private to the package; unknown package groups count as public.", "quantifier": "every pair of targets and every visibility list", "why_tests_cant": "decision logic over unbounded lists of patterns", "anchors": ["bant/tool/dwyu.cc: DWYUGenerator::CanSee"]}
{"id": "C30", "title": "Building the dependency graph terminates and computes reachability", "statement": "For every project, also with cyclic dependencies, whose loaded and needed BUILD files can be searched: building the dependency graph terminates, and with depth limit n the targets in the graph are exactly the defined targets that can be reached in at most n steps along deps and alias references from the targets matching the pattern. If the limit is at least the number of reachable defined targets, these are all reachable defined targets. The BUILD files loaded on the way are exactly those of the packages of targets that are reached.", "quantifier": "every project graph, file system, pattern and depth", "why_tests_cant": "termination and reachability on all finite graphs", "anchors": ["bant/explore/dependency-graph.cc: BuildDependencyGraph, FindAndParseMissingPackages"]}
{"id": "C31", "title": "has-dependents is the exact inverse of depends-on", "statement": "In the graph built, target b is listed as dependent of a exactly as often as a is listed as dependency of b.", "quantifier": "every project, pattern and depth", "why_tests_cant": "relation between two output maps for all inputs", "anchors": ["bant/explore/dependency-graph.cc: BuildDependencyGraph"]}
{"id": "C32", "title": "Each target is resolved once, by its first definition", "statement": "If the same target name is defined more than once in a package, the dependencies recorded are those of the first definition; no target gets its entry overwritten.", "quantifier": "every project with duplicate definitions", "why_tests_cant": "history property", "anchors": ["bant/explore/dependency-graph.cc: BuildDependencyGraph"]}
{"id": "C33", "title": "The file walk terminates and collects exactly the wanted files", "statement": "Walking a directory tree, possibly with symbolic link cycles, terminates; it never reports a directory or an unwanted file; in a tree without links it reports exactly the files that are wanted and reachable through wanted directories, once each.", "quantifier": "every finite file system (directory graph with inodes), all predicates", "why_tests_cant": "cycles and sharing; all directory graphs", "anchors": ["bant/util/file-utils.cc: CollectFilesRecursive, LooksLikeValidInode"]}
{"id": "C34", "title": "Reading a file returns the complete content or nothing", "statement": "Whatever sizes the operating system returns for the individual read calls, reading a file returns either exactly the content of the file or reports failure; never a truncated or padded content.", "quantifier": "every file content and every schedule of short reads and errors", "why_tests_cant": "schedules of partial reads cannot be enumerated", "anchors": ["bant/util/file-utils.cc: ReadFileToString"]}
{"id": "C35", "title": "glob() returns included minus excluded files and pruning directories loses none", "statement": "A file is accepted exactly if it matches an include pattern and no exclude pattern; every directory that leads to a file matching an include pattern is accepted by the directory predicate, so pruning does not lose files.", "quantifier": "every set of include and exclude patterns and every path", "why_tests_cant": "the regular expression for directories must be a superset for all patterns", "anchors": ["bant/util/glob-match-builder.cc: GlobMatchBuilder"]}
{"id": "C36", "title": "glob patterns have the documented meaning", "statement": "`*` matches within one path component, `**` matches any number of whole components, every other character matches itself.", "quantifier": "every pattern and every path", "why_tests_cant": "regular language equality over all patterns", "anchors": ["bant/util/glob-match-builder.cc: ConvertToRegexp"]}
{"id": "C37", "title": "The worker pool runs each job at most once, in order, and shuts down", "statement": "In every interleaving of workers, submitters and shutdown: a job is started at most once, jobs are started in submission order, no job is started after shutdown has been observed, and once shutdown was requested every worker terminates.", "quantifier": "every thread schedule and every number of workers and jobs", "why_tests_cant": "interleavings cannot be covered by tests", "anchors": ["bant/util/filesystem-prewarm-cache.cc: ThreadPool"]}
{"id": "C38", "title": "The access log contains each path once and replays to the same accesses", "statement": "The pre-warm log written during a run contains each accessed file or directory exactly once, in the order of first access, one record per line; the replay of the log requests exactly these accesses again.", "quantifier": "every sequence of accesses (also with a rewrite of the log in between)", "why_tests_cant": "history property over arbitrary access sequences", "anchors": ["bant/util/filesystem-prewarm-cache.cc: WritePrefixed, InitCacheFile, FilesystemPrewarmCacheRememberFileWasAccessed"]}
{"id": "C39", "title": "Structured table output can be parsed back", "statement": "The rows written in CSV, JSON and S-expression format can be decoded to exactly the cells that were put in, for every cell content; different tables give different outputs.", "quantifier": "every table content", "why_tests_cant": "escaping must be right for every byte sequence", "anchors": ["bant/util/table-printer.cc: CSVTablePrinter, JSonTablePrinter, SExprTablePrinter, PListTablePrinter"]}
{"id": "C40", "title": "Native table columns line up", "statement": "In the aligned table output each row starts its k-th cell at the same column in all rows, which lies after every preceding cell; no cell is truncated.", "quantifier": "every table", "why_tests_cant": "width computation over all tables", "anchors": ["bant/util/table-printer.cc: AlignedTextPrinter"]}
{"id": "C41", "title": "External project lookup finds the project by name with or without version", "statement": "Looking up an external project by name (with or without leading @) finds an entry iff one with that name exists, and then the path registered for the lowest version of it; augmenting the workspace from directories never overrides an entry that was present before and is idempotent.", "quantifier": "every workspace content and every name", "why_tests_cant": "ordered-map lower bound logic for all contents", "anchors": ["bant/workspace.cc: BazelWorkspace::FindEntryByProject, FindPathByProject, BestEffortAugmentFromExternalDir", "bant/workspace.h"]}
{"id": "C42", "title": "A package is loaded once; errors are counted", "statement": "Adding build files to a project in any order: the first file given for a package is kept, later ones for the same package do not replace it; the number of errors equals the number of files that failed.", "quantifier": "every sequence of added files", "why_tests_cant": "history property", "anchors": ["bant/frontend/parsed-project.cc: AddBuildFile, AddBuildFileContent"]}
{"id": "C43", "title": "A command is run iff the given prefix is unique", "statement": "For every word given as command: if it is a prefix of exactly one command name, that command is run; if it is a prefix of several or of none, no command is run and the exit status is failure.", "quantifier": "every string", "why_tests_cant": "all strings; sorted-map neighbour logic", "anchors": ["bant/cli-commands.cc: RunCliCommand"]}
{"id": "C44", "title": "Commands that modify or print need an explicit pattern", "statement": "`dwyu`, `canonicalize` and `print` never run on the whole project by default: without a pattern argument they end with a failure status and produce no primary output; malformed patterns likewise.", "quantifier": "every command line", "why_tests_cant": "all argument vectors", "anchors": ["bant/cli-commands.cc: RunCliCommand"]}
{"id": "C45", "title": "Include scanning sees exactly the quoted include lines", "statement": "The headers extracted from a C++ source are exactly the quoted operands of the lines that are include directives, in order, each with its position in the file.", "quantifier": "every source text", "why_tests_cant": "regular expression search over all texts", "anchors": ["bant/tool/dwyu.cc: ExtractCCIncludes"]}
{"id": "C46", "title": "Header path normalisation is idempotent and harmless", "statement": "Normalising a header path removes leading `./` only; doing it again changes nothing; two headers that a library exports under the same normalised path are found under that path.", "quantifier": "every path string", "why_tests_cant": "all strings", "anchors": ["bant/explore/header-providers.cc: LightCanonicalizePath, IterateCCLibraryHeaders"]}
{"id": "C47", "title": "The queries visit each rule of interest exactly once, with its own attributes", "statement": "Searching a syntax tree for rules visits every function call whose name is in the requested set exactly once, in document order, and reports the keyword arguments of that very call (last one wins), never those of a surrounding or sibling call.", "quantifier": "every syntax tree and every set of rule names", "why_tests_cant": "induction over arbitrary trees", "anchors": ["bant/explore/query-utils.cc: TargetFinder, FindTargets"]}
{"id": "C48", "title": "Edit scripts contain one command per edit", "statement": "Each edit produces one buildozer line (add, remove or rename) with the target and the old and new names in the right places; the number of edits reported equals the number of lines.", "quantifier": "every sequence of edits", "why_tests_cant": "history property", "anchors": ["bant/tool/edit-callback.cc: CreateBuildozerPrinter", "bant/tool/dwyu.cc: CreateDependencyEdits"]}
{"id": "C49", "title": "aliased-by is the exact inverse of the alias rules", "statement": "An alias a is listed under target t iff some alias rule named a has actual pointing to t.", "quantifier": "every project", "why_tests_cant": "relation over all projects", "anchors": ["bant/explore/aliased-by.cc: ExtractAliasedBy"]}
{"id": "C50", "title": "The package of a BUILD file is its directory", "statement": "The package path derived from the file name of a BUILD file is the directory part of that name relative to the project root.", "quantifier": "every path", "why_tests_cant": "all strings", "anchors": ["bant/frontend/parsed-project.cc: TargetPathFromBuildFile, DetermineSearchDirFromPattern, CollectBuildFiles"]}
{"id": "C51", "title": "Printed locations name the first and the last character", "statement": "The location printed for a piece of a file names the one-based line and column of its first character and, if it is longer than one character, the one-based column (and line, if different) of its last character.", "quantifier": "every content and every piece of it", "why_tests_cant": "off-by-one behaviour depends on the position of all newlines", "anchors": ["bant/frontend/source-locator.cc: operator<<(LineColumnRange)"]}
{"id": "C52", "title": "Every token has the form its type announces", "statement": "A string literal token is a complete literal that ends at the first matching unescaped quote(s); number, word, keyword and operator tokens have the documented form and are as long as possible; an error token is an unterminated string, a number with a second dot, or one character that starts no token.", "quantifier": "every file content", "why_tests_cant": "for-all over inputs; quotes, escapes and triple quotes combine arbitrarily", "anchors": ["bant/frontend/scanner.cc: HandleString, HandleNumber, HandleIdentifierKeywordRawStringOrInvalid, HandleAssignOrRelational, Next"]}
{"id": "C53", "title": "The parser accepts exactly a fixed grammar and builds its trees", "statement": "A file is parsed without error iff its tokens form a sentence of the (declaratively given) grammar of BUILD files: assignments, rule calls, lists, maps, tuples, comprehensions, conditional expressions, slices, right-associative binary operators; the resulting tree is the unique tree this grammar assigns to the sentence.", "quantifier": "every byte sequence", "why_tests_cant": "an equivalence between a recursive descent parser with one token lookahead and a grammar over an infinite language", "anchors": ["bant/frontend/parser.cc: Parser::Impl::parse and all Parse* functions"]}
{"id": "C54", "title": "Number tokens of every base denote their value or are rejected", "statement": "Each number token (decimal, 0x hexadecimal, 0o octal) gets the value it denotes if that fits into 64 bit signed, and is otherwise rejected with an error; no part of its text is silently ignored.", "quantifier": "every number token the scanner can produce", "why_tests_cant": "unbounded digit strings; base prefixes combine with invalid digits", "anchors": ["bant/frontend/ast.cc: IntScalar::FromLiteral", "bant/frontend/scanner.cc: HandleNumber"]}
{"id": "C55", "title": "Elaboration keeps the meaning of what it evaluates", "statement": "Whenever an expression assigned at toplevel or passed as argument of a rule has a value at its place in the file (strings with their escape sequences, raw strings, numbers, lists, `+`, variables including several on the left side, select with the default condition, comprehensions; all other operators arbitrary), the elaborated expression has the same value and needs no variables any more.", "quantifier": "all files without syntax errors, all interpretations of the remaining operators", "why_tests_cant": "semantic preservation of a partial evaluator over arbitrary nesting and statement sequences", "anchors": ["bant/frontend/elaboration.cc: SimpleElaborator"]}
{"id": "C56", "title": "The header index knows exactly the headers that the rules of the project provide", "statement": "For every project without syntax errors the header index can be built, and looking up an include path in it yields exactly the targets that provide it: libraries with the header in hdrs, textual_hdrs or public_hdrs under each path it can be included as (include_prefix, strip_include_prefix, includes), the aliases of these libraries, and libraries made from protocol buffers with the name of the generated header. In particular each header of an ordinary library is found as package path plus header name.", "quantifier": "every set of BUILD files, every path", "why_tests_cant": "combination of many attributes over all projects; end-to-end from file content to lookup", "anchors": ["bant/explore/header-providers.cc: ExtractHeaderToLibMapping, IterateCCLibraryHeaders, AppendCCLibraryHeaders, AppendProtoLibraryHeaders", "bant/explore/query-utils.cc: ExtractStringList"]}
{"id": "C57", "title": "Generated files belong to the first genrule that lists them", "statement": "For every project without syntax errors, each output of a genrule is attributed to the first genrule (in order of packages and of the text) that has it as output, and nothing else is.", "quantifier": "every set of BUILD files, every path", "why_tests_cant": "history property over all projects with duplicate outputs", "anchors": ["bant/explore/header-providers.cc: ExtractGeneratedFromGenrule"]}
{"id": "C59", "title": "Loading the workspace registers exactly the declared projects that are on disk", "statement": "Whatever is in the workspace files that exist (WORKSPACE, WORKSPACE.bazel, WORKSPACE.bzlmod, MODULE.bazel), also with syntax errors, the loaded workspace contains exactly the projects declared in what is parsed of them by http_archive or bazel_dep for which there is a readable directory: under repo_name if that is given, else name, with the declared version, and with the first readable directory of name~version, name, name~override, first match of name~*. There is a workspace iff one of the files exists.", "quantifier": "every content of the workspace files and every file system", "why_tests_cant": "end-to-end over arbitrary files and file systems; later declarations override earlier ones", "anchors": ["bant/workspace.cc: LoadWorkspace"]}
{"id": "C60", "title": "Files of an external package are looked for in the directory of that external project", "statement": "The file system path of a file of a package is its path below the directory of the project of the package; a file of an external project is never taken from the main project.", "quantifier": "every workspace, package and file name", "why_tests_cant": "all strings, all workspaces", "anchors": ["bant/types-bazel.cc: BazelPackage::FullyQualifiedFile"]}
{"id": "C58", "title": "DWYU never tells a rule to depend on itself", "statement": "No add edit names the very rule that is edited: a library that includes its own headers, under whatever path, is not told to depend on itself.", "quantifier": "every project, every rule, every content of sources", "why_tests_cant": "the ways a library can provide a header under some path are unbounded", "anchors": ["bant/tool/dwyu.cc: DWYUGenerator::DependenciesNeededBySources, IsHeaderInList"]}
{"id": "C61", "title": "The BUILD file of a package is looked for in the directory of the package", "statement": "When a package is needed that is not loaded yet, its BUILD file is looked for where the other files of that package are: in the directory of the package below the directory of its project, first as BUILD, then as BUILD.bazel; packages of unknown projects are not found.", "quantifier": "every workspace, file system and package", "why_tests_cant": "all strings, all workspaces and file systems", "anchors": ["bant/explore/dependency-graph.cc: PathForPackage"]}
{"id": "C62", "title": "Building the dependency graph never crashes", "statement": "Whatever the file system looks like, if all BUILD files that are read are free of errors, building the dependency graph does not crash.", "quantifier": "every file system, project, pattern and depth", "why_tests_cant": "reading can fail in ways tests do not set up", "anchors": ["bant/explore/dependency-graph.cc: FindAndParseMissingPackages", "bant/frontend/parsed-project.cc: ParsedProject::AddBuildFile"]}
{"id": "C63", "title": "A pattern loads the packages it names", "statement": "After filling the project from a pattern, every package at the pattern (or below, if it is recursive) that has a readable BUILD file is loaded, from a BUILD file in the directory of that package; nothing else is loaded.", "quantifier": "every directory tree, every pattern", "why_tests_cant": "directory trees with links, hidden directories and arbitrary depth cannot be enumerated", "anchors": ["bant/frontend/parsed-project.cc: CollectBuildFiles, FillFromPattern, AddBuildFile", "bant/util/file-utils.cc: CollectFilesRecursive"]}
{"id": "C64", "title": "A job handed to the worker pool is not forgotten", "statement": "If there is a worker, jobs return and shutdown is not requested, then every job that was handed in gets run to its end, once, in every interleaving: no wake-up is lost.", "quantifier": "every thread schedule, every number of workers and jobs, spurious wake-ups included", "why_tests_cant": "lost wake-ups depend on the interleaving", "anchors": ["bant/util/filesystem-prewarm-cache.cc: ThreadPool::ExecAsync, ThreadPool::Runner"]}
{"id": "C65", "title": "The name of the access log stands for the invocation", "statement": "Two invocations share an access log exactly if they are for the same directory and have the same arguments, except for flags that do not change what is accessed.", "quantifier": "every list of arguments, every directory", "why_tests_cant": "collisions between arbitrary argument lists", "anchors": ["bant/util/filesystem-prewarm-cache.cc: FilesystemPrewarmCacheInit"]}
{"id": "C66", "title": "A path object answers as the operating system does", "statement": "However a path object was made, any sequence of questions to it gets the answers of the operating system (as long as the file system does not change), and its file name is the element after the last slash.", "quantifier": "every path, every way to make it, every sequence of questions", "why_tests_cant": "memoization depends on the order of questions", "anchors": ["bant/util/file-utils.cc: FilesystemPath", "bant/util/file-utils.h: FilesystemPath::filename"]}
{"id": "C67", "title": "Highlighting does not change what is printed", "statement": "With a grep pattern, a statement of a parsed file is printed with the same text as without, but for terminal control sequences (none if colour is off), and a match is reported exactly if the pattern matches in some identifier or string of it.", "quantifier": "every file, every pattern", "why_tests_cant": "patterns and the text they split are unbounded", "anchors": ["bant/frontend/print-visitor.cc: PrintVisitor, PrintMatchHighlight"]}
{"id": "C68", "title": "bant print writes the rules it is asked for", "statement": "Printing a project writes those rules, with a comment line each and in order of files and rules, that the pattern asks for; with a grep pattern only those in which it matches, with the option for errors only those of files with errors. Without a grep pattern it always ends.", "quantifier": "every project (also files with syntax errors or evaluated ones), pattern, set of options", "why_tests_cant": "combinations of patterns, packages and rules", "anchors": ["bant/frontend/parsed-project.cc: PrintProject", "bant/frontend/print-visitor.cc"]}
{"id": "C69", "title": "glob() is replaced by the files that are there", "statement": "In a package whose directory is a tree, glob() is replaced by the list of exactly those files below it that match an include and no exclude pattern, relative to the package, each once; the search ends and no check fails.", "quantifier": "every directory tree, every list of patterns (paths without newlines)", "why_tests_cant": "trees and patterns are unbounded; pruning interacts with both", "anchors": ["bant/frontend/elaboration.cc: HandleGlob, MultiGlob", "bant/util/glob-match-builder.cc", "bant/util/file-utils.cc: CollectFilesRecursive"]}
{"id": "C70", "title": "Success means that something was done", "statement": "If the exit status of bant is 0, then the command was run, or its help or version was asked for; if a command was run, the exit status is what that returned.", "quantifier": "every command line, every behaviour of the command", "why_tests_cant": "all argument vectors; scripts and CI rely on the status", "anchors": ["bant/bant.cc: main", "bant/cli-commands.cc: RunCliCommand"]}
{"id": "C71", "title": "Options in the help are accepted and have their effect", "statement": "Every option that the help lists is accepted, before or after the command, alone or joined with others; the command runs with the values given, of several the last; -rN stands for N levels, -r for all, -r0 is as if it was not given.", "quantifier": "every command line, every N that fits into an int", "why_tests_cant": "all argument vectors and orders of options", "anchors": ["bant/bant.cc: main, usage"]}
{"id": "C72", "title": "A prefix of a format selects it only if it is unique", "statement": "-f with the unique prefix of the name of a format selects that format; with any other text nothing is run.", "quantifier": "every string", "why_tests_cant": "all strings; sorted-map neighbour logic", "anchors": ["bant/bant.cc: main"]}
{"id": "C73", "title": "A failure that prevents the command from running is explained", "statement": "If no command is run and the exit status is a failure, there is a message on standard error.", "quantifier": "every command line", "why_tests_cant": "all argument vectors", "anchors": ["bant/bant.cc: main", "bant/cli-commands.cc: RunCliCommand", "bant/session.h: Session"]}
{"id": "C74", "title": "The output file is only touched if the command runs", "statement": "Files lose their content only if they are given with -o and a command is run; the output is in the last of these files.", "quantifier": "every command line", "why_tests_cant": "all argument vectors", "anchors": ["bant/bant.cc: main"]}
{"id": "C75", "title": "bant workspace lists the external projects that are used", "statement": "With a pattern, bant workspace lists exactly those known external projects that the matching targets refer to; without, all that are known.", "quantifier": "every workspace, every set of BUILD files without syntax errors, every pattern", "why_tests_cant": "all combinations of files, references and patterns", "anchors": ["bant/tool/workspace.cc: PrintMatchingWorkspaceExternalRepos", "bant/workspace.h: BazelWorkspace"]}
{"id": "C76", "title": "The compilation database is JSON with an entry per source", "statement": "The output of bant compilation-db can be read by a JSON parser; it has one entry for each source or header of a C++ rule that matches, each once, with the directory, file and arguments for the compiler.", "quantifier": "every workspace, every set of BUILD files without syntax errors, every pattern, every .bazelrc", "why_tests_cant": "all texts that can occur in paths and options; all numbers of entries", "anchors": ["bant/tool/compilation-db.cc: WriteCompilationDB, WriteCompilationDBEntry, EncodeFlagsIncludeAsJson"]}
{"id": "C77", "title": "compilation-db and compile-flags do not crash", "statement": "For every set of BUILD files without syntax errors, bant compilation-db and bant compile-flags come to an end with output.", "quantifier": "every set of BUILD files without syntax errors", "why_tests_cant": "all combinations of rules and attributes", "anchors": ["bant/tool/compilation-db.cc: CollectIncDirs"]}
{"id": "C78", "title": "Include directories are complete, and each is given once", "statement": "The directories given to the compiler are exactly: the current and the output directory, those declared in includes, virtual directories for include_prefix, and the directories of all external projects that rules depend on; none is given twice.", "quantifier": "every workspace, every set of BUILD files without syntax errors", "why_tests_cant": "all combinations of rules, and state shared over all of them", "anchors": ["bant/tool/compilation-db.cc: CollectIncDirs, ProtobufHack, WriteCompilationFlags"]}
{"id": "C79", "title": "Compiler options are those that .bazelrc sets for all builds", "statement": "The values of --cxxopt and --host_cxxopt that begin with a dash are taken from lines for build and test, not from special configurations such as build:asan; each once, in their order.", "quantifier": "every content of .bazelrc", "why_tests_cant": "all texts", "anchors": ["bant/tool/compilation-db.cc: ExtractOptionsFromBazelrc"]}
{"id": "C80", "title": "Headers are found with the include directories", "statement": "A header of a library, included with a path that bant associates with that library, is found in one of the include directories.", "quantifier": "every workspace, every set of BUILD files without syntax errors, every library and header", "why_tests_cant": "two independent computations (header index, include directories) have to agree for all attributes", "anchors": ["bant/tool/compilation-db.cc: CollectIncDirs", "bant/explore/header-providers.cc: IterateCCLibraryHeaders"]}
{"id": "C81", "title": "Exit status tells what happened", "statement": "bant exits with 1 exactly if there is no workspace (or the arguments are wrong), with 3 exactly if dwyu or canonicalize print edits, and bant parse exits with 0 only if no opened file has syntax errors.", "quantifier": "every project, all options, every command and pattern", "why_tests_cant": "all combinations of commands, options and projects", "anchors": ["bant/cli-commands.cc: RunCommand"]}
{"id": "C82", "title": "depends-on prints exactly what is reached", "statement": "bant depends-on prints exactly the targets that are reached within the number of steps given with -r from those that match the pattern, each with what its rule depends on in the order of the rule, sorted by target.", "quantifier": "every project of BUILD files in which nothing is missing (with or without syntax errors), every pattern, every number of steps", "why_tests_cant": "all graphs of dependencies, loaded on demand", "anchors": ["bant/cli-commands.cc: RunCommand, PrintOneToN", "bant/explore/dependency-graph.cc: BuildDependencyGraph"]}
{"id": "C83", "title": "has-dependents looks at the whole project", "statement": "bant has-dependents prints exactly the matching targets that something depends on, in the whole project and what it depends on; each with all its dependents, as often as they mention it.", "quantifier": "every project of BUILD files in which nothing is missing (with or without syntax errors), every pattern, every number of steps", "why_tests_cant": "all graphs of dependencies", "anchors": ["bant/cli-commands.cc: RunCommand, PrintOneToN", "bant/explore/dependency-graph.cc: BuildDependencyGraph"]}
{"id": "C84", "title": "has-dependents is the converse of depends-on", "statement": "With the same number of steps, bant has-dependents lists a as a dependent of b exactly as often as bant depends-on (without a pattern) lists b as a dependency of a.", "quantifier": "every project, every pattern, every positive number of steps", "why_tests_cant": "relation between the output of two runs over all graphs", "anchors": ["bant/cli-commands.cc: RunCommand, PrintOneToN"]}
{"id": "C85", "title": "list-packages prints the packages and the files Bazel uses", "statement": "bant list-packages prints exactly the packages found for the pattern, with their BUILD file, and with -r those of dependencies, sorted; if a directory has both BUILD and BUILD.bazel, the file is BUILD.bazel as in Bazel.", "quantifier": "every project of BUILD files in which nothing is missing (with or without syntax errors), every pattern, every number of steps", "why_tests_cant": "all directory trees and orders in which directories are listed", "anchors": ["bant/cli-commands.cc: RunCommand", "bant/frontend/parsed-project.cc: FillFromPattern, AddBuildFile"]}
{"id": "C86", "title": "list-targets prints exactly the targets asked for", "statement": "bant list-targets prints the rules that match the pattern and, with -r, those that they depend on within the number of steps; nothing else.", "quantifier": "every project of BUILD files in which nothing is missing (with or without syntax errors), every pattern, every number of steps", "why_tests_cant": "all graphs of dependencies", "anchors": ["bant/cli-commands.cc: RunCommand"]}
{"id": "C87", "title": "lib-headers prints exactly the headers of the libraries asked for", "statement": "bant lib-headers prints the headers that are provided by the libraries matching the pattern (with -r: by all that are found), sorted, each with all libraries that provide it; nothing else.", "quantifier": "every project of BUILD files in which nothing is missing (with or without syntax errors), every pattern, every number of steps", "why_tests_cant": "all combinations of libraries, aliases and patterns", "anchors": ["bant/cli-commands.cc: RunCommand", "bant/explore/header-providers.cc: ExtractHeaderToLibMapping, PrintProvidedSources"]}
{"id": "C88", "title": "genrule-outputs prints the first rule for each generated file", "statement": "bant genrule-outputs prints the generated files, sorted, each with the first rule (in the order of packages and rules) that lists it, if that matches the pattern; with -r for all packages that are found.", "quantifier": "every project of BUILD files in which nothing is missing (with or without syntax errors), every pattern, every number of steps", "why_tests_cant": "all combinations of rules and packages", "anchors": ["bant/cli-commands.cc: RunCommand", "bant/explore/header-providers.cc: ExtractGeneratedFromGenrule, PrintProvidedSources"]}
{"id": "C89", "title": "aliased-by prints all aliases", "statement": "bant aliased-by prints the targets that match the pattern with all their aliases in the files found for the pattern; with -r also those in the files of dependencies.", "quantifier": "every project of BUILD files in which nothing is missing (with or without syntax errors), every pattern, every number of steps", "why_tests_cant": "all combinations of aliases and packages", "anchors": ["bant/cli-commands.cc: RunCommand", "bant/explore/aliased-by.cc: ExtractAliasedBy"]}
{"id": "C90", "title": "Following dependencies further only adds to the output", "statement": "If the number given with -r is larger, then everything that depends-on, list-packages, list-targets, lib-headers and genrule-outputs printed before is still printed.", "quantifier": "every project of BUILD files in which nothing is missing (with or without syntax errors), every pattern, all pairs of numbers of steps", "why_tests_cant": "relation between two runs over all graphs", "anchors": ["bant/cli-commands.cc: RunCommand", "bant/explore/dependency-graph.cc: BuildDependencyGraph"]}
{"id": "C91", "title": "What a target depends on does not depend on the pattern", "statement": "If bant depends-on prints a target for two different patterns, then it prints the same dependencies for it.", "quantifier": "every project of BUILD files in which nothing is missing (with or without syntax errors), all pairs of patterns", "why_tests_cant": "relation between two runs over all projects", "anchors": ["bant/cli-commands.cc: RunCommand", "bant/explore/dependency-graph.cc: FindAndParseMissingPackages"]}
{"id": "C92", "title": "canonicalize suggests exactly what can be shortened, and its edits settle the matter", "statement": "bant canonicalize prints one edit for each dependency of a matching rule that is not written in the shortest way, in the order of the files, and each edit replaces it by the shortest name of the same target; if all of the edits are carried out and the command is run again, it prints nothing and exits with 0.", "quantifier": "every project of BUILD files in which nothing is missing (with or without syntax errors), every pattern, every state of the project in which the edits are carried out", "why_tests_cant": "relation between two runs over all projects", "anchors": ["bant/cli-commands.cc: RunCommand", "bant/tool/canon-targets.cc: CreateCanonicalizeEdits", "bant/types-bazel.cc: ToStringRelativeTo"]}
{"id": "C93", "title": "Carrying out the edits of dwyu settles the matter", "statement": "If all edits that bant dwyu printed are carried out (dependencies removed and added as buildozer does, everything else as before) and the command is run again with the same arguments, it prints nothing and exits with 0.", "quantifier": "every project of BUILD files in which nothing is missing (with or without syntax errors), every pattern, all sources, every state of the project in which the edits are carried out", "why_tests_cant": "relation between two runs over all projects; a fixed point", "anchors": ["bant/tool/dwyu.cc: CreateDependencyEdits", "bant/cli-commands.cc: RunCommand", "bant/explore/dependency-graph.cc: BuildDependencyGraph"]}
{"id": "C94", "title": "The advice of dwyu does not depend on how dependencies are written, and is itself canonical", "statement": "If dependencies are replaced by other names of the same targets (as bant canonicalize suggests), bant dwyu suggests the same edits in the same order; and what it adds is written in the shortest way and means a rule that exists, so canonicalize has nothing to say about it.", "quantifier": "every project, every pattern, all sources, all ways to write dependencies", "why_tests_cant": "relation between two runs over all projects", "anchors": ["bant/tool/dwyu.cc: CreateEditsForTarget", "bant/types-bazel.cc: ParseFrom, ToStringRelativeTo"]}
{"id": "C95", "title": "Output does not depend on the order in which directories are listed", "statement": "If the file system lists the entries of directories in another order (or files are put elsewhere in memory), every command prints the same and exits with the same status.", "quantifier": "all directory trees, all orders of their entries, every command, every pattern, all options", "why_tests_cant": "relation between two runs on different machines; the order of readdir() can not be chosen in a test", "anchors": ["bant/util/file-utils.cc: CollectFilesRecursive", "bant/frontend/parsed-project.cc: CollectBuildFiles, FillFromPattern", "bant/cli-commands.cc: RunCommand"]}
{"id": "C96", "title": "Layout and comments do not matter", "statement": "If BUILD and workspace files are rewritten with other white space and comments between the words (but no new line is put in front of a bracket or taken away there), they are read as the same, with errors at the same words; every command prints the same with the same status. Exceptions are the places printed by list-targets and print, and comments about kept dependencies for dwyu.", "quantifier": "all pairs of texts that differ in layout and comments only, all projects, every command, every pattern, all options", "why_tests_cant": "relation between two runs over all texts and all ways to format them", "anchors": ["bant/frontend/scanner.cc: Next, SkipSpace, ConsumeOptionalIn", "bant/frontend/parser.cc", "bant/cli-commands.cc: RunCommand"]}
{"id": "C97", "title": "No command crashes or runs for ever", "statement": "Whatever is in the BUILD files and workspace files, every command ends with a status, without crash: if the search for BUILD files ends, files with read permission can be read, and regular expressions find parts of texts.", "quantifier": "all contents of all files, every command, every pattern, all options", "why_tests_cant": "all texts, with all syntax errors; all commands", "anchors": ["bant/cli-commands.cc: RunCommand", "bant/explore/query-utils.cc: AppendStringList", "bant/frontend/parser.cc"]}
{"id": "C98", "title": "print and parse write exactly the rules asked for", "statement": "Whenever bant print ends, it has written exactly those rules of the BUILD files for the pattern that the pattern asks for (with -g: in which a name, identifier or string has a match; with -E: of files with syntax errors), each as it was parsed or (with -e) evaluated, with a comment line, in order. bant parse writes nothing without -p and -E; with one of them the same, also from files of dependencies up to the number of steps.", "quantifier": "all projects (print: also with any syntax errors; parse: of BUILD files in which nothing is missing), all patterns, all options, all regular expressions", "why_tests_cant": "all projects, patterns and options; the whole way from directories to the output", "anchors": ["bant/cli-commands.cc: RunCommand", "bant/frontend/parsed-project.cc: PrintProject", "bant/frontend/elaboration.cc: Elaborate"]}
{"id": "C99", "title": "workspace prints exactly the projects that are known, or used", "statement": "Without pattern, bant workspace prints all external projects that are known, and does not depend on BUILD files. With a pattern it prints exactly those that are mentioned in load(), deps or actual of what matches, in the order of names, each in its smallest version.", "quantifier": "all projects of BUILD files in which nothing is missing, all workspace files, all patterns", "why_tests_cant": "all projects and patterns; the whole way from workspace files to the output", "anchors": ["bant/cli-commands.cc: RunCommand", "bant/tool/workspace.cc", "bant/workspace.cc: LoadWorkspace, BestEffortAugmentFromExternalDir"]}
{"id": "C100", "title": "compilation-db and compile-flags agree, and cover all dependencies", "statement": "For the same pattern, bant compile-flags and bant compilation-db have the same options and include directories, those of all rules in the files that are opened for the pattern or reached from there; the database is JSON with an entry for each source of the matching rules.", "quantifier": "all projects of BUILD files in which nothing is missing, all patterns, all .bazelrc", "why_tests_cant": "relation between two commands, over all projects", "anchors": ["bant/cli-commands.cc: RunCommand", "bant/tool/compilation-db.cc"]}
{"id": "C101", "title": "Commands depend on the rules only", "statement": "Whatever the BUILD and workspace files look like: if, in two projects, the same rules (kind and attributes, as texts and lists of texts; for commands but workspace, only rules with a name count) are in the files, as they are and after evaluation, then every command that does not print expressions writes the same with the same status. For dwyu, also the files included by sources and the comments about kept dependencies are to be the same.", "quantifier": "all pairs of projects with the same rules, every command but print (and parse if it prints), every pattern, all options", "why_tests_cant": "relation between two runs over all pairs of projects", "anchors": ["bant/cli-commands.cc: RunCommand", "bant/explore/query-utils.cc", "bant/tool/dwyu.cc", "bant/explore/dependency-graph.cc"]}
{"id": "C102", "title": "The order of attributes and the quotes of strings do not matter", "statement": "If attributes are written in another order (each name once in a call), or strings with other quotes, anywhere in BUILD and workspace files, then the same rules are found, and every command that does not print expressions writes the same with the same status.", "quantifier": "all files, any reordering of keyword arguments in any call, every command but print (and parse if it prints), every pattern, all options", "why_tests_cant": "relation between two runs over all files and permutations", "anchors": ["bant/explore/query-utils.cc: ExtractQueryInfo", "bant/frontend/elaboration.cc", "bant/cli-commands.cc: RunCommand"]}
{"id": "C103", "title": "It does not matter whether values are named or written out", "statement": "If a value is given a name that is used instead (what is named in there is not assigned again in between), or if lists and strings are written in pieces joined by +, or the other way round, any number of times, then every command that does not print expressions writes the same with the same status.", "quantifier": "all projects, any number of such changes, every command but print (and parse if it prints), every pattern, all options", "why_tests_cant": "relation between two runs over all files and all ways to name values", "anchors": ["bant/frontend/elaboration.cc: VisitIdentifier, VisitAssignment, VisitBinOpNode", "bant/cli-commands.cc: RunCommand"]}
{"id": "C104", "title": "Files that have nothing to do with the pattern do not matter", "statement": "A command writes the same with the same status, whatever is in BUILD files that are not found for its pattern and do not belong to packages with targets that are reached from there: other rules, syntax errors, or nothing that can be read (for dwyu, such a file that is also read as a source has to include the same as before). Commands that do not follow dependencies only depend on the files that are found.", "quantifier": "all projects in which nothing is missing in the files that matter, any change of other BUILD files, every command, every pattern, all options", "why_tests_cant": "relation between two runs over all projects and all changes of other files", "anchors": ["bant/cli-commands.cc: RunCommand", "bant/explore/dependency-graph.cc: BuildDependencyGraph, FindAndParseMissingPackages", "bant/frontend/parsed-project.cc: FillFromPattern"]}
{"id": "C105", "title": "If dwyu is silent about a rule, its includes are accounted for", "statement": "If dwyu suggests no edit and says nothing but how many targets it checked, then all sources of each selected rule were read, and each header that they include is one of the sources of the rule, or there is a dependency of the rule that provides it.", "quantifier": "all projects, all contents of source files, every pattern, every level of verbosity", "why_tests_cant": "absence of messages for all projects is a statement about everything the tool does not report", "anchors": ["bant/tool/dwyu.cc: DependenciesNeededBySources, CreateEditsForTarget, CreateDependencyEdits"]}
{"id": "C106", "title": "What dwyu says is true, and complete", "statement": "The messages of dwyu are, in this order: files that several genrules create; for each selected rule, in order, exactly the facts that hold for it (unreadable sources, unknown, generated or relative includes with their line and column, who provides headers, dependencies that are invalid or superfluous, alternatives to choose from, libraries that can not be added and why); and the number of rules that were checked and of edits. Each message is true as it is worded.", "quantifier": "all projects, all contents of source files, every pattern, every level of verbosity", "why_tests_cant": "soundness and completeness of messages over all projects", "anchors": ["bant/tool/dwyu.cc: DependenciesNeededBySources, CreateEditsForTarget, IsTestonlyCompatible, CreateDependencyEdits", "bant/explore/header-providers.cc: ExtractGeneratedFromGenrule"]}
{"id": "C107", "title": "Includes that are not seen from the root of the project are pointed out", "statement": "If a source in the project includes another source of the same rule, or a header of another rule, by a path that is only found relative to its own package, dwyu points out the line and column, and nothing else is reported as such.", "quantifier": "all projects, all contents of source files, every pattern, every level of verbosity", "why_tests_cant": "a message for exactly the right places in all sources", "anchors": ["bant/tool/dwyu.cc: IsHeaderInList, DependenciesNeededBySources"]}
{"id": "C108", "title": "The first syntax error is reported where the file goes wrong", "statement": "If a file has syntax errors, then the first one that is reported is at the first place where it goes wrong: the text before the reported token can be completed to a file without syntax errors, and every file with the same tokens up to and including the reported one has a syntax error, first of all this one. A file that ends too early is reported at its end.", "quantifier": "all contents of files, all completions of what is before the error, all continuations of what includes it", "why_tests_cant": "quantifies over all continuations of all files; tests can only look at the location of some errors", "anchors": ["bant/frontend/parser.cc: Parser::Impl (parse and all Parse functions, ErrAt)", "bant/frontend/scanner.cc: Next"]}
{"id": "C109", "title": "Names, numbers and strings in the tree are where they are written", "statement": "In a file without syntax errors, the identifiers, numbers, strings and plus signs of each statement of the tree are, in order, those that are written in the text of this statement: each text of the tree is at the place of the token it is made from (for strings: of what is between the quotes), none is missing, none is there twice and none is from elsewhere. With or without errors, each text in the tree is what stands in the file at its place.", "quantifier": "all contents of files", "why_tests_cant": "quantifies over all files; tests can only look at the places in some trees", "anchors": ["bant/frontend/parser.cc: Parser::Impl", "bant/frontend/ast.h: StringScalar::FromLiteral, IntScalar::FromLiteral, BinOpNode"]}
{"id": "C110", "title": "Locations that commands print are where things are written", "statement": "The location that list-targets prints for a target (file, line, column) is that of its name in the BUILD file of its package; the location that print shows above a rule is that of the name of the called function.", "quantifier": "all projects, all contents of BUILD files, all patterns and options", "why_tests_cant": "quantifies over all files and goes through scanner, parser, evaluation, search and output", "anchors": ["bant/cli-commands.cc: RunCommand (list-targets)", "bant/frontend/parsed-project.cc: PrintProject, Loc, GetLocation", "bant/frontend/elaboration.cc: ConcatStrings, HandleGlob"]}
{"id": "C111", "title": "A dependency that is marked with keep is not removed", "statement": "If dwyu suggests to remove a dependency, then it is written in the list of dependencies of this rule, and there is no comment with keep in the line where it is written, unless -k is given.", "quantifier": "all projects, all contents of BUILD files and sources, all patterns and options", "why_tests_cant": "quantifies over all files; the comment is not part of the tree but found in the text around the place of the dependency", "anchors": ["bant/tool/dwyu.cc: CreateEditsForTarget", "bant/frontend/parsed-project.cc: GetSurroundingLine", "bant/frontend/named-content.cc"]}
{"id": "C112", "title": "Looking up locations never fails and changes nothing else", "statement": "Commands end with a result also if the locations they print are looked up in the files; what they print is what they would print with any other locations, but for these.", "quantifier": "all projects without missing expressions, all patterns and options", "why_tests_cant": "termination and relation between runs over all projects", "anchors": ["bant/cli-commands.cc: RunCommand", "bant/frontend/parsed-project.cc: GetLocation, GetSurroundingLine", "bant/frontend/linecolumn-map.cc"]}
{"id": "C113", "title": "Messages about syntax errors say where and what", "statement": "For every file there are messages about syntax errors iff it has one; each message has the name of the file, line and column of a piece of it, and the text of this piece.", "quantifier": "all file names and contents", "why_tests_cant": "quantifies over all files; the lines known to the message are those scanned so far", "anchors": ["bant/frontend/parser.cc: ErrAt", "bant/frontend/scanner.cc", "bant/frontend/named-content.cc: GetLocation", "bant/frontend/source-locator.cc", "bant/frontend/parsed-project.cc: AddBuildFileContent"]}
{"id": "C114", "title": "What the first syntax error says to be expected would be accepted", "statement": "The first message about a file names what was expected; if any of the words it names stood there, the text could be continued to a file without syntax errors.", "quantifier": "all file contents", "why_tests_cant": "quantifies over all files and asks for a continuation of each", "anchors": ["bant/frontend/parser.cc: all calls of ErrAt"]}
{"id": "C115", "title": "bant parse is silent iff there is nothing to complain about", "statement": "bant parse (without -v, -p, -E) writes nothing to standard error iff there is a workspace, no file of it has a syntax error, no project is absent that is declared in both kinds of its files, at least one BUILD file is found for the pattern, each of these can be read, is the only one of its package and has no syntax error, and neither have the BUILD files of the dependencies that are followed.", "quantifier": "all projects (BUILD files in which nothing is missing; those with read permission can be read), all patterns and options", "why_tests_cant": "all projects; the whole way from directories and files to standard error", "anchors": ["bant/cli-commands.cc: RunCommand", "bant/workspace.cc: LoadWorkspace", "bant/frontend/parsed-project.cc: FillFromPattern, AddBuildFile", "bant/explore/dependency-graph.cc: BuildDependencyGraph"]}
{"id": "C116", "title": "What is written to standard error before a command is exactly known", "statement": "What commands write to standard error is, in this order: syntax errors of the workspace files and absent projects; that the project of the pattern is unknown; for each BUILD file that is found that it can not be read, or that there is another one for the package, or its syntax errors; that there is none; syntax errors of the BUILD files of dependencies; with -v what is not found, and numbers; then the complaint about a regular expression. Nothing else, but for genrule-outputs, dwyu and canonicalize.", "quantifier": "all projects (BUILD files in which nothing is missing; those with read permission can be read), all patterns and options, all commands that read a project", "why_tests_cant": "all projects, patterns and options; the order of messages of several modules", "anchors": ["bant/cli-commands.cc: RunCommand", "bant/workspace.cc: LoadWorkspace", "bant/frontend/parsed-project.cc: FillFromPattern, AddBuildFile, PrintProject", "bant/explore/dependency-graph.cc: BuildDependencyGraph"]}
{"id": "C117", "title": "Declared projects that are not extracted are reported", "statement": "For each external project that is declared in the files of the workspace but in none of the directories where it may be, a line says so, with the location of its name.", "quantifier": "all contents of the workspace files and directories, all commands and options", "why_tests_cant": "all workspaces; the report depends on several files together", "anchors": ["bant/workspace.cc: LoadWorkspace, LoadWorkspaceFromFile"]}
{"id": "C118", "title": "With -v exactly what is not found is listed", "statement": "If dependencies are followed, then with -v those packages are listed that are reached and have no BUILD file, and those targets that are reached and defined by no rule; each once, and no others.", "quantifier": "all projects (BUILD files in which nothing is missing; those with read permission can be read), all patterns and options, all commands that follow dependencies", "why_tests_cant": "reachability in an arbitrary dependency graph over files that are found on the way", "anchors": ["bant/explore/dependency-graph.cc: BuildDependencyGraph"]}
{"id": "C119", "title": "-q only hides messages", "statement": "With -q a run has the same exit status, output and files written as without; of what is on standard error, exactly what is written to the streams of the session is missing.", "quantifier": "all arguments, environments and projects", "why_tests_cant": "relation between two runs over all inputs", "anchors": ["bant/bant.cc: main", "bant/session.h", "bant/cli-commands.cc: RunCliCommand"]}
{"id": "C120", "title": "canonicalize reports each dependency that is no target", "statement": "canonicalize writes a line to standard error for each dependency of a matching rule that can not be understood as target, in the order of files and rules, with the location where this dependency is written (that of the + or glob, if it is made by one; in files without syntax errors and without a newline within not in); and nothing else beyond what is said before any command.", "quantifier": "all projects (BUILD files in which nothing is missing; those with read permission can be read), all patterns and options", "why_tests_cant": "all projects; goes from the text of files through parsing and evaluation to the location in the message", "anchors": ["bant/tool/canon-targets.cc: CreateCanonicalizeEdits", "bant/frontend/parsed-project.cc: Loc"]}
{"id": "C121", "title": "genrule-outputs reports each file that is made twice", "statement": "genrule-outputs writes a line to standard error for each output of a genrule of the main project if another rule is the first one that makes this file, with the location of the output (that of the + or glob, if it is made by one; in files without syntax errors and without a newline within not in) and the names of both; and nothing else beyond what is said before any command.", "quantifier": "all projects (BUILD files in which nothing is missing; those with read permission can be read), all patterns and options", "why_tests_cant": "all projects; all pairs of outputs", "anchors": ["bant/explore/header-providers.cc: ExtractGeneratedFromGenrule", "bant/cli-commands.cc: RunCommand"]}
{"id": "C122", "title": "dwyu reports at the right places and counts right", "statement": "dwyu writes to standard error, for each matching rule in order, exactly the messages that there are to be about it, with the locations in the BUILD file of name, sources and dependencies (that of the + or glob, if it is made by one; in files without syntax errors and without a newline within not in); in the end, the number of rules that were checked and the number of lines on standard output.", "quantifier": "all projects (BUILD files in which nothing is missing; those with read permission can be read), all patterns and options", "why_tests_cant": "all projects and sources; goes from files to messages", "anchors": ["bant/tool/dwyu.cc: CreateDependencyEdits, CreateEditsForTarget, DependenciesNeededBySources", "bant/frontend/parsed-project.cc: Loc"]}
{"id": "C123", "title": "After the edits of dwyu each include is provided, or dwyu says why not", "statement": "Once the edits that dwyu suggests are carried out, each rule that was checked depends on a library that provides the header, for each header that its sources include and that is found in some visible library; otherwise it was said on standard error that for this rule there is a choice between several libraries, all of which are visible and provide the header, or that the library that provides it is for tests only.", "quantifier": "all projects whose packages and rules have different, well-formed names; all rules of the main project, sources, patterns, verbosity", "why_tests_cant": "all combinations of headers, providers and dependencies; relates edits, messages and the state after the edits", "anchors": ["bant/tool/dwyu.cc: CreateEditsForTarget, MinimizeDependencySet, CanSee, IsTestonlyCompatible", "bant/types-bazel.cc: BazelTarget::ToStringRelativeTo"]}
{"id": "C124", "title": "The edits of dwyu do not take away an included header", "statement": "If a rule includes a header that one of its dependencies provides, and this library is visible, then a dependency provides the header once the edits that dwyu suggests are carried out.", "quantifier": "all projects whose packages and rules have different, well-formed names; all rules of the main project, sources, patterns", "why_tests_cant": "all combinations of headers, providers and dependencies", "anchors": ["bant/tool/dwyu.cc: CreateEditsForTarget, MinimizeDependencySet"]}
{"id": "C125", "title": "The order of rules in BUILD files does not matter", "statement": "If rules that are next to each other in BUILD files are put in a different order, then depends-on and list-packages print the same; list-targets prints the same rules, has-dependents and aliased-by print the same targets with the same others, and canonicalize the same edits, in whatever order.", "quantifier": "all projects whose BUILD files are good and have no two rules for the same target; all permutations, flags and patterns", "why_tests_cant": "relation between the output for two projects, over all permutations of all files", "anchors": ["bant/explore/dependency-graph.cc: BuildDependencyGraph", "bant/explore/aliased-by.cc: ExtractAliasedBy", "bant/explore/query-utils.cc: FindTargets", "bant/cli-commands.cc: RunCommand"]}
{"id": "C126", "title": "The order of rules does not matter for who provides a file", "statement": "If rules that are next to each other in BUILD files are put in a different order, then lib-headers and genrule-outputs print the same.", "quantifier": "all projects whose BUILD files are good and have no two rules for the same target; all permutations, flags and patterns", "why_tests_cant": "relation between the output for two projects, over all permutations of all files", "anchors": ["bant/explore/header-providers.cc: ExtractHeaderToLibMapping, ExtractGeneratedFromGenrule, AppendProtoLibraryHeaders"]}
{"id": "C127", "title": "The order of rules does not matter for dwyu", "statement": "If rules that are next to each other in BUILD files are put in a different order (with their comments), then dwyu prints the same edits, in whatever order.", "quantifier": "all projects whose BUILD files are good and have no two rules for the same target, and are not sources of rules; all permutations, sources, flags and patterns", "why_tests_cant": "relation between the output for two projects, over all permutations of all files and all sources", "anchors": ["bant/tool/dwyu.cc: CreateEditsForTarget, MinimizeDependencySet", "bant/explore/header-providers.cc: ExtractHeaderToLibMapping, FindBySuffix"]}
{"id": "C128", "title": "The statistics of -v come last and change nothing else", "statement": "With -v, a run that gets to a command writes the statistics as the last thing to standard error: a line for each kind of work of the command (with a fixed title and what is counted) in the order in which it was first done, with how often it was done and how many bytes there were, over all of the run. Apart from these lines the run is the same; without -v, or if no command is run, there are none.", "quantifier": "all arguments, environments and projects; all times", "why_tests_cant": "all sequences of things that are counted", "anchors": ["bant/bant.cc: main", "bant/session.h: Session", "bant/util/stat.cc: Stat::ToString", "bant/util/stat.h: Stat"]}
{"id": "C129", "title": "The statistics count each BUILD file once", "statement": "The numbers of BUILD files that are read and parsed, as written with -v, are the number of packages of the project, and the bytes are those of their BUILD files; the number of files that are evaluated is that of all packages, or of those that are opened for dependencies, if evaluation is not asked for.", "quantifier": "all projects, commands, flags and patterns", "why_tests_cant": "all projects; the same file can be met in several ways", "anchors": ["bant/frontend/parsed-project.cc: AddBuildFile", "bant/explore/dependency-graph.cc: BuildDependencyGraph", "bant/frontend/elaboration.cc: Elaborate"]}
{"id": "C130", "title": "The statistics count the rounds that are needed to follow dependencies", "statement": "The number of rounds for the dependency graph, as written with -v, is one more than the largest number of steps that is needed to get to a target, among those that are not farther away than asked for.", "quantifier": "all projects (BUILD files in which nothing is missing; those with read permission can be read), all patterns and options", "why_tests_cant": "all dependency graphs, with cycles and targets that do not exist", "anchors": ["bant/explore/dependency-graph.cc: BuildDependencyGraph"]}
{"id": "C131", "title": "The statistics count dependencies, libraries and sources", "statement": "With -v, canonicalize writes how many dependencies there are in the rules that match; dwyu writes how many libraries it knows, and how many sources of the rules that match could be read, with the sum of their sizes, once as read and once as searched for includes.", "quantifier": "all projects (BUILD files in which nothing is missing; those with read permission can be read), all patterns and options", "why_tests_cant": "all projects and sources", "anchors": ["bant/tool/canon-targets.cc: CreateCanonicalizeEdits", "bant/tool/dwyu.cc: DependenciesNeededBySources, InitKnownLibraries"]}
{"id": "C132", "title": "The statistics count all that is looked at for BUILD files", "statement": "The number of files and directories that is written with -v for the search for BUILD files is that of all that is in the directory of the pattern, and, if the pattern is recursive, in the directories below that are searched.", "quantifier": "all file systems in which directories list names; all commands, flags and patterns", "why_tests_cant": "all directory structures", "anchors": ["bant/util/file-utils.cc: CollectFilesRecursive", "bant/frontend/parsed-project.cc: FillFromPattern"]}
{"id": "C133", "title": "The statistics count the names of BUILD files that are tried", "statement": "The number of checks for existence that is written with -v is that of the names that have to be tried for each BUILD file that is opened because of dependencies: one for BUILD, two for BUILD.bazel.", "quantifier": "all projects (BUILD files in which nothing is missing; those with read permission can be read), all patterns and options", "why_tests_cant": "all projects and dependency graphs", "anchors": ["bant/explore/dependency-graph.cc: PathForPackage, FindAndParseMissingPackages"]}
{"id": "C134", "title": "glob() is the same as a list of the files that are there", "statement": "If in BUILD files calls of glob() are replaced by lists of the files that are found, then every command that does not print expressions writes the same with the same status. What is found are the files below the directory of the package that match an include pattern and no exclude pattern, each once.", "quantifier": "all projects, any number of calls, with positional or named include patterns, with or without exclude patterns and other arguments; every command but print (and parse if it prints), every pattern, all options", "why_tests_cant": "relation between two runs over all projects and all patterns of files", "anchors": ["bant/frontend/elaboration.cc: HandleGlob, VisitFunCall", "bant/cli-commands.cc: RunCommand", "bant/util/file-utils.cc: CollectFilesRecursive"]}
{"id": "C135", "title": "-e only adds to what is found", "statement": "What is printed without -e is also printed with -e: packages, targets with their kind, their dependencies and dependents, aliases, headers with the libraries that provide them, generated files, and the edits of canonicalize. For a BUILD file: if variables and operators are evaluated, then rules stay, in order, with kind and name; attributes that were known stay, and so do the elements of lists.", "quantifier": "all projects, patterns, depths and formats; commands list-packages, list-targets, depends-on, has-dependents, aliased-by, lib-headers, genrule-outputs, canonicalize; all BUILD files", "why_tests_cant": "relation between two runs over all projects and programs", "anchors": ["bant/frontend/elaboration.cc: Elaborate, VisitFunCall, VisitBinOpNode", "bant/cli-commands.cc: RunCommand", "bant/explore/query-utils.cc: FindTargets"]}
{"id": "C136", "title": "Asking for a part of a project gives that part of the answer", "statement": "If a pattern asks for a part of what another one asks for, then what is printed for it is exactly that part of what is printed for the other, in the same order: the edits of canonicalize, the lines of list-targets, list-packages and depends-on, the rules of print. has-dependents searches everything anyway, so this is the same for all projects; aliased-by shows the aliases in the packages that are asked for; genrule-outputs and lib-headers tell of the rules asked for what they make and provide, but for files also made elsewhere and aliases of libraries elsewhere; with -r, depends-on prints a part of the lines.", "quantifier": "all projects and all pairs of patterns of which one is narrower; commands canonicalize, list-targets, list-packages, print, depends-on, has-dependents, aliased-by, genrule-outputs, lib-headers; all formats", "why_tests_cant": "relation between two runs over all projects and pairs of patterns", "anchors": ["bant/frontend/parsed-project.cc: CollectBuildFiles, FillFromPattern", "bant/types-bazel.cc: BazelPattern::Match", "bant/cli-commands.cc: RunCommand", "bant/tool/canon-targets.cc: CreateCanonicalizeEdits"]}
{"id": "C137", "title": "A comma after the last element does not matter", "statement": "If a BUILD file is read without errors, then it is also read without errors, and as the same tree, if commas that follow the last element of a list, a map, a tuple or the arguments of a call are left out. So whether such commas are written in BUILD and workspace files makes no difference for what a command prints, and for the status.", "quantifier": "all texts without syntax errors and any number of such commas, in nested brackets of all kinds; all commands, flags and patterns", "why_tests_cant": "relation between two runs over all programs", "anchors": ["bant/frontend/parser.cc: ParseList, ParseListOrListComprehension, ParseParenExpressionOrTuple, ParseFunCall", "bant/cli-commands.cc: RunCommand"]}
{"id": "C138", "title": "Appending to a BUILD file only adds", "statement": "If a text is read without errors and another text that begins with a name or a string is appended in a new line, then the statements of the first are read, followed by exactly what is read of the second alone, with errors at the same tokens. The rules of the first are found with their attributes before all others. What is read of any file with an error are complete statements, followed by at most one more; the first error is behind the complete ones.", "quantifier": "all texts, also if the second has any number of errors", "why_tests_cant": "relation between three parses over all programs, with any errors", "anchors": ["bant/frontend/parser.cc: parse, ParseStatement", "bant/frontend/scanner.cc: Scanner::Next", "bant/explore/query-utils.cc: FindTargets"]}
{"id": "C139", "title": "Parentheses around a whole expression do not matter", "statement": "If a text is read without errors, then it is also with parentheses around any of its expressions (each all that is read as an expression at its place, also in each other), and the tree is the same. Whether there are such parentheses in BUILD and workspace files or not, every command prints the same with the same status, if the places of names (which some commands print) are the same.", "quantifier": "all texts, all choices of expressions, all commands", "why_tests_cant": "relation between two parses over all programs and all places for parentheses", "anchors": ["bant/frontend/parser.cc: ParseExpression, ParseParenExpressionOrTuple", "bant/frontend/parser.cc: ParseList, ParseComprehensionFor"]}
{"id": "C140", "title": "Attributes that bant does not know do not matter", "statement": "If keyword arguments of other names than those that are looked at are added to calls in BUILD and workspace files (say tags, data, copts), at whatever place and with whatever values that can be evaluated, then the same rules are found, as they are and after evaluation, and every command prints the same with the same status. (But for print, and parse if it is to print.)", "quantifier": "all trees, all places, all unknown names and all values; all commands", "why_tests_cant": "relation between two runs over all projects and all possible additions", "anchors": ["bant/explore/query-utils.cc: TargetFinder::VisitAssignment, ExtractQueryInfo, ExtractPackageInfo", "bant/frontend/elaboration.cc: VisitAssignment, HandleGlob, HandleSelect"]}
{"id": "C141", "title": "Option -b does what -e does, with a note", "statement": "If -b is given in place of -e, at whatever place and however often, then the program prints the same and ends in the same way; all that is added is one line on standard error for each of them, ahead of all else (for those that are looked at before an option that ends the program).", "quantifier": "all argument lists, all projects", "why_tests_cant": "relation between two runs over all argument lists and all projects", "anchors": ["bant/bant.cc: main, case 'b'"]}
{"id": "C142", "title": "Appending rules to BUILD files only adds to what commands print", "statement": "If something that begins with a name or a string is appended, in a new line, to BUILD files without syntax errors, and in all BUILD files nothing that is looked at is missing before and after, then list-packages, list-targets, depends-on, has-dependents, aliased-by and lib-headers print all that they printed before: the same rows, with the same dependencies and locations, and for each header, alias or dependency the same targets and maybe others. A rule that is appended with the name of an existing one does not change what is printed for that. canonicalize suggests the same edits and print (without -g and -E) writes the same rules, in the same order, with others in between. genrule-outputs prints the same rule for a file, if no other rule makes it.", "quantifier": "all projects, all appended texts, all patterns and options", "why_tests_cant": "relation between two runs over all projects and all texts that can be appended", "anchors": ["bant/frontend/parser.cc: statement list", "bant/explore/dependency-graph.cc: BuildDependencyGraph", "bant/explore/header-providers.cc", "bant/explore/query-utils.cc: FindTargets", "bant/frontend/elaboration.cc: Elaborate"]}
{"id": "C143", "title": "Strings as statements, such as doc strings, do not matter", "statement": "A text of nothing but strings is read as no statement, without errors, and there is no other text of which this is true. If lines with strings are put ahead of everything, behind everything, or between statements, then it is the same tree, and there are as many errors with the same tokens. Whether there are such strings in BUILD and workspace files or not, every command prints the same with the same status, if the places of names (which some commands print) are the same. (But for print, and parse if it is to print.)", "quantifier": "all texts, all strings, any number of places; all commands", "why_tests_cant": "relation between two runs over all programs and all places for strings", "anchors": ["bant/frontend/parser.cc: parse (lines 93-96)", "bant/frontend/scanner.cc: HandleString", "bant/cli-commands.cc: RunCommand"]}
{"id": "C144", "title": "select() is the same as its value for the default condition", "statement": "If in BUILD files calls of select() are replaced by their value for //conditions:default, then every command that does not print expressions writes the same with the same status. (In the file select is no variable, the file can be evaluated.)", "quantifier": "all projects, any number of calls of select(), also in each other; any other conditions, values and arguments; every command but print (and parse if it prints), every pattern, all options", "why_tests_cant": "relation between two runs over all programs and all choices of calls", "anchors": ["bant/frontend/elaboration.cc: HandleSelect (lines 158-172), VisitFunCall", "bant/cli-commands.cc: RunCommand"]}
{"id": "C145", "title": "Calls without name do not matter", "statement": "If in BUILD and workspace files calls without a name, like load(), licenses() or exports_files(), are added or left out at any place at the top of files, then every command writes the same with the same status, but for print (and parse if it prints) and workspace (that tells which projects something is loaded from). The calls have constants (strings, numbers, lists of these) for arguments, with or without keyword, and are not package(), glob(), select() or of variables.", "quantifier": "all projects, any number of such calls added and others left out, any names of functions; every command but print, workspace (and parse if it prints), every pattern, all options", "why_tests_cant": "relation between two runs over all programs and all choices of calls", "anchors": ["bant/explore/query-utils.cc: FindTargets, FindTargetsAllowEmptyName", "bant/frontend/elaboration.cc: VisitFunCall", "bant/cli-commands.cc: RunCommand", "bant/workspace.cc: LoadWorkspace"]}
