# Formal model of bant: design

Subject: hzeller/bant, the pinned source in `/repo` (C++). All line numbers cited
below and in the Lean files refer to that tree. The C++ code is neither built nor
run; the model was written by reading it.

## Approach

* The model is written as small total computable functions on `List Char`
  (strings are byte strings in C++; a `Char` stands for one byte), `Nat`,
  `Option` and inductive trees. Loops become structural or fuel-free well-founded
  recursion; where fuel is used, a theorem shows that the fuel given is always
  enough.
* Undefined behaviour (null dereference, wrong static_cast, failing CHECK,
  out-of-range access) is a distinct outcome (`none`/`.ub`/`.crash`), never a
  default value.
* Property theorems live in `lean/Verif/Props/*.lean`, next to an independent
  specification and a non-vacuity `example`; helper lemmas in
  `lean/Verif/Lemmas/*.lean`; the model in `lean/Verif/Model/*.lean`.
* If the code does not satisfy a claimed property, the file proves the negation on
  a concrete witness (named `*_counterexample`) and a restricted theorem with the
  suffix `_partial`.

## Trusted base

* Lean 4.33.0 kernel; the axioms `propext`, `Classical.choice`, `Quot.sound`
  (no others; checked with `#print axioms` through `vcheck`).
* That the model follows the C++ (argued by the citation at each definition). As evidence, the unit tests of the
  project (all `*_test.cc` in `/repo/bant`, except the one of `ArenaDeque`, which is an instance of C21) are repeated
  on the model in `lean/Verif/Tests/*.lean`, with the same inputs and the same expectations; all of them hold. They are
  examples, checked by the kernel, and no claim in `MANIFEST.json` depends on them.
* Library semantics that are modelled and not verified: abseil `StrSplit` (one part for an empty string, but none for a
  `string_view` that has never been set; so an alias without known `actual` is an alias for nothing),
  `StrCat`, `CEscape`, hash and btree containers (as finite maps), RE2 (as
  denotational regular language matching of the constructs that are used; on texts whose bytes stand for characters.
  RE2 reads UTF-8, where `.` is a character of several bytes and never a byte that is not UTF-8: for texts that are
  valid UTF-8, `.*` and `[^/]*` match the same either way; a `.` that is not quoted (C08) is one byte in the model and
  one character for RE2; for names that are not UTF-8 the model matches more),
  the program `buildozer` (C48: how it reads a command; C92-C94: that it removes, adds and replaces
  dependencies of the rule that is named, and changes nothing else of it),
  POSIX `read`/`stat`/`readdir`, `std::thread`/mutex/condition variable (as an
  interleaving transition system).

## Plan per property

| Id | What is modelled | How it is proved |
|----|------------------|------------------|
| C01, C02, C07 | `BazelPattern` parse and match | case analysis on the match kind, list prefix lemmas |
| C03, C04, C05, C06 | `BazelPackage`/`BazelTarget` parse and print, canonicalize decision | round-trip laws, lemmas about split at separator |
| C08 | `GlobbingToRE2` and regular expression matching | counterexample for meta characters, partial theorem for globs whose last segment is quoted-safe |
| C09 | `LineColumnMap`, `NamedLineIndexedContent` | refinement to counting newlines |
| C10-C13 | `Scanner` as function on remaining text | induction on the remaining text; invariant of line table |
| C14, C15 | all parse functions | fuel bound in number of tokens; induction over the run |
| C16 | `PrintVisitor` + scanner + parser | counterexamples (dropped parentheses, quotes, ...), partial for trees without these: the tokens of the printed text derive the tree in the grammar |
| C17, C18 | `FromLiteral` functions | direct |
| C19, C20 | `SimpleElaborator` | big-step function with UB outcome, compared to a denotational spec |
| C21 | `ArenaDeque` as list of blocks | refinement to `List` by induction over appends |
| C22 | `Arena` bump allocation | invariant by induction over requests |
| C23, C24 | `DisjointRangeMap`, location registry | sorted association list refinement |
| C25 | `FindBySuffix` on a sorted index | lexicographic order theory |
| C26 | `MinimizeDependencySet` | induction over the sorted sets |
| C27, C28, C29, C58 | DWYU, from index and sources to edits | exact account of the edits of a rule, then corollaries |
| C30, C31, C32, C61, C62 | `BuildDependencyGraph`, loading on demand | invariant per round, least distances |
| C33 | `CollectFilesRecursive` on an abstract inode graph | measure on unseen inodes |
| C34 | `ReadFileToString` with a schedule of read results | induction over the schedule |
| C35, C36, C69 | `GlobMatchBuilder` regexps, `MultiGlob` on the walk of C33 | the text of the regular expression is parsed back; regular language lemmas; induction over directories |
| C37, C64 | `ThreadPool` transition system | inductive invariant over all interleavings, decreasing measure |
| C38, C65 | `WritePrefixed`, cache replay, name of the log | induction over accesses |
| C66 | `FilesystemPath` | invariant of what is memoized |
| C67, C68 | `PrintVisitor` with highlighting, `PrintProject` | induction over trees and files |
| C39, C40 | table printers | decoder and round-trip |
| C41, C59, C60 | `BazelWorkspace` map, loading it | sorted map lookup, fold over declarations |
| C42 | `ParsedProject::AddBuildFile*` | induction over operations |
| C43, C44, C70-C74 | `main`, `RunCliCommand` | reduction of neighbour test to uniqueness of prefix; effect of each option, fold over options |
| C45 | `ExtractCCIncludes` regexp | language lemma |
| C46, C56, C57 | header path computations | direct |
| C47, C49 | `TargetFinder`, alias map | tree induction |
| C48 | edit printer, as read by a shell and buildozer | induction over edits; where characters of names come from |
| C75 | `PrintMatchingWorkspaceExternalRepos` | exact set of references, sorted maps |
| C76-C80 | `WriteCompilationDB`, `WriteCompilationFlags` | lexer and parser for JSON, run over the text written; invariant of what has been seen; induction over words |
| C81-C91 | `RunCommand`: everything above, put together | what is opened and loaded for a command, then exact rows; relations between runs |
| C92-C94 | `dwyu` and `canonicalize`, run again after their edits are carried out | relation of two projects, rule by rule; the headers provided and the choice among alternatives are the same |
| C95 | `CollectBuildFiles`, `RunCommand`: two machines that list directories in different order | the set of files found is characterised (C60), the project is a function of it; the rest of a run is a congruence |
| C96 | scanner, parser, `RunCommand`: two texts with the same words | each branch of `Next` looks at most one character past the token (`dispatch_local`), so gaps can be exchanged; the parser is a bisimulation for tokens that differ in places only; the rest of a run is a congruence |
| C97 | all of `RunCommand` on any machine | each command is total on complete trees (C56, C68, C75, C77, C93 …), loading a workspace always (C59) |
| C98 | `RunCommand` for `print` and `parse` | C68 for the files that were opened or loaded; where each of them comes from |
| C99 | `RunCommand` for `workspace` | C75 for the map that C59 and `augment` give, which is sorted |
| C100 | `RunCommand` for `compilation-db` and `compile-flags` | both see the same files; then C76 to C78 |
| C101 | all of `RunCommand` but printing trees | what is found in a tree, for all kinds of rules, is a view; all that follows is a function of the views |
| C102, C103, C134 | elaborator and queries on related trees; `RunCommand` by C101; `glob()` by C69 | relational induction over `walk`: within calls nothing is assigned, so arguments can be exchanged; environments with and without the name |
| C135 | elaborator and queries: rules before and after; seven commands by C82 to C89 | induction over `walk` with names that are not assigned: calls stay, with arguments evaluated; monotonicity of the specifications of commands |
| C136 | search for BUILD files, and seven commands, for two patterns | names on the way to a package are unique; what is opened for the narrower pattern is a filter of what is opened for the other; commands by C82 to C98 |
| C137 | parser; all commands for projects that differ in commas | derivations of the grammar, with the stack of open brackets; then the same trees give the same output |
| C138 | scanner and parser on a text and the text continued | the scanner does not look across the seam; a complete statement ends at a name or a string; induction over the statements |
| C139 | the grammar on tokens with and without parentheses | induction over the derivation, with what is known about the place (expression expected, list of variables, after a phrase); expressions are unique by determinism of the parser |
| C140 | trees with more keyword arguments of unknown names | relation on trees that is kept by evaluation (arguments of calls do not bind variables); what is reported depends on known names only (C47), then C101 |
| C141 | outcome of `main` with options renamed | induction over the options; notes are counted |
| C142 | rows of commands on a lengthened disk | rules of the longer file begin with those of the shorter; first definition wins, so graph, headers and aliases are monotone |
| C143 | tree and commands with strings as statements | the grammar has one production for them, and C138 puts the parts together |
| C144 | elaborator on trees with and without `select()`; `RunCommand` by C101 | relational induction over `walk`, as for C103 |
| C145 | files with and without calls that have no name; `RunCommand` by C101 | such calls evaluate to themselves and bind nothing; what is reported is filtered by name; C101 asks for rules with a name only |
| C104 | `RunCommand`, dependency graph | what is loaded only grows, so whatever is read is in the result; the loop takes the same steps |
| C105, C106, C107 | messages of DWYU | exact account of what is said for a rule (`Says`), beside that of the edits; silence and relative includes are corollaries |
| C108 | parser and scanner, on C53 | whatever the parser asks for next can be completed with a few words (numbers, closing brackets, `:`, `=`, `in`), so what it has read is the beginning of a sentence; it does not look at tokens after the one it complains about; at the level of text, a file cut off before a token has the same tokens before the cut |
| C109 | parser with places | the parser is modelled again with the place of each text; that it is the same parser, and that all texts are in the file, by one simulation; the order of words by another |
| C110, C111, C112 | commands with places | each text in a tree, also in an evaluated one, stands in the file at its place or was made by `+` or `glob` (invariant of parser and elaborator); the commands with places are simulated by those without; on C09, C24, C109 |
| C113 | messages of the parser | each token that is complained about has been scanned at that time (invariant of all parser functions), hence the lines up to it are known; on C09, C10, C51 |
| C114 | what is expected | at the first complaint, each word that it offers begins a completion of what was read (C108, with the word fixed); the texts of the messages are matched with a table |
| C115, C116, C118 | standard error | all messages before the command: those about a file depend on the files before; loading in rounds (C35) says each text once; what is not found is what C16 reaches |
| C117 | standard error | messages of `LoadWorkspace`, exactly; on C65 |
| C119 | standard error | simulation: the options with and without `-q` give the same but for the flag |
| C120, C121, C122 | standard error | messages of the commands with places: invariant of C110 for each text that is mentioned; on C102, C57, C105 to C107 |
| C123, C124 | edits of DWYU | exact account of edits and messages (C105 to C107), with what it means to carry out edits (C93) |
| C125, C126, C127 | order of rules | relation between two projects, carried through evaluation, the search for rules and the dependency graph |
| C128, C129, C130, C131, C132, C133 | statistics of `-v` | all that is counted is a list of events of the run; numbers are compared with what is in the project, sources and directories |
| C50, C63 | `FillFromPattern`, on the walk of C33 | induction over directories, history of C42 |

## What is modelled

| Lean module | Source in /repo/bant |
|-------------|----------------------|
| `Model/TypesBazel` | types-bazel.cc: `BazelPackage`, `BazelTarget` parsing, printing, relative names |
| `Model/Edits` | tool/canon-targets.cc 32-73: canonical name and rename decision |
| `Model/Regex` | the constructs of RE2 that the code uses, as languages, and a matcher |
| `Model/TargetGlob` | types-bazel.cc: `BazelPattern`, `BazelTargetMatcher`, `GlobbingToRE2` |
| `Model/LineCol` | frontend/linecolumn-map.cc, named-content.cc |
| `Model/Scanner` | frontend/scanner.cc |
| `Model/Ast`, `Model/Parser` | frontend/ast.h, ast.cc (literals), parser.cc |
| `Model/Messages` | parser.cc: the texts written by `ErrAt` and after it, `operator<<` for tokens |
| `Model/Elab` | frontend/elaboration.cc 50-293 (result of a glob walk is a parameter) |
| `Model/Query` | explore/query-utils.cc |
| `Model/Arena` | util/arena.h, util/arena-container.h |
| `Model/RangeMap` | util/disjoint-range-map.h |
| `Model/Project` | frontend/parsed-project.cc 148-237: loading, location lookup |
| `Model/StrMap`, `Model/HeaderIndex` | `absl::btree_map` with string keys; explore/header-providers.cc 354-412: lookup |
| `Model/Headers` | explore/header-providers.cc 73-352: what is in the index; explore/aliased-by.cc |
| `Model/Workspace` | workspace.cc, types-bazel.cc `FullyQualifiedFile`; the file system (directories, readable, content, shell glob) is a parameter |
| `Model/Includes` | tool/dwyu.cc 531-558: `ExtractCCIncludes` (regular expression search as a scan) |
| `Model/Dwyu` | tool/dwyu.cc, dwyu-internal.h except `ExtractCCIncludes`, messages see next line; reading files and the line around a dependency are parameters |
| `Model/DwyuMessages` | tool/dwyu.cc, explore/header-providers.cc 331-347: what is said on the info stream; locations in BUILD files are parameters, those in sources are computed |
| `Model/Stderr` | everything written to standard error by cli-commands.cc and what it calls, and by bant.cc: workspace.cc 150-180, parsed-project.cc 60-210, dependency-graph.cc 70-208, canon-targets.cc 55-62, with locations computed from the files. Parameters: what the regular expression library says, and the statistics for `-v` (see `Model/Stats`) |
| `Model/Located`, `Model/LocatedCommands` | parser, elaborator, search for rules, `list-targets`, `print` and `dwyu` again, with the place of each text (`string_view`) in its file, so that locations and lines are computed; proved to be the same as the models without places (`Lemmas/Located*`) |
| `Model/DepGraph` | explore/dependency-graph.cc; file system, workspace and the result of `glob()` are parameters |
| `Model/FileUtils` | util/file-utils.cc: `ReadFileToString`, `CollectFilesRecursive`; what the operating system answers is a parameter |
| `Model/Collect` | frontend/parsed-project.cc 44-146: finding BUILD files for a pattern, their packages |
| `Model/ThreadPool` | util/filesystem-prewarm-cache.cc 47-96: the pool, as interleaving of steps between operations on mutex and condition variable; jobs are opaque and return |
| `Model/Prewarm` | util/filesystem-prewarm-cache.cc 97-190: log of accesses, replay, name of the log (hash function is a parameter) |
| `Model/FsPath` | util/file-utils.cc 41-102: `FilesystemPath`; the operating system is a parameter |
| `Model/Glob` | util/glob-match-builder.cc; frontend/elaboration.cc 193-272: files of `glob()` |
| `Model/Table` | util/table-printer.cc: all formats (`absl::CEscape` from its documentation) |
| `Model/Cli` | bant.cc, cli-commands.cc 280-365: options, choice of the command (`getopt`, `atoi` from their documentation; what the command does is a parameter) |
| `Model/Print` | frontend/print-visitor.cc: text of a tree, with colours and highlighted matches; what the regular expression finds in a text is a parameter |
| `Model/PrintProject` | frontend/parsed-project.cc 240-308: `bant print`, without `-e` |
| `Model/WorkspaceCmd` | tool/workspace.cc: `bant workspace` |
| `Model/CompDb` | tool/compilation-db.cc: `bant compilation-db`, `bant compile-flags` (regular expressions by what they match; working directory and `.bazelrc` are parameters) |
| `Model/Ordered` | order of packages and targets (types-bazel.h), `std::map` and `absl::btree_map` with these keys; the maps of the graph in that order |
| `Model/Commands` | cli-commands.cc 57-285: `RunCommand` and each command, up to the text that is written (`-v` messages are in `Model/Stderr`, statistics in `Model/Stats`) |
| `Model/Stats` | util/stat.cc, util/stat.h, session.h, bant.cc 239-245, and everything that is counted elsewhere: what `-v` writes at the end. Parameters: how long things take, the text of the throughput, how many files `glob()` looks at |

Simplifications that hold everywhere: pointers into the arena and string views are values;
the order of iteration of hash containers never matters in what is stated; machine integers
are unbounded except where a definition says otherwise; messages to the user are modelled
only if a property speaks about them. `nullptr` is `Node.null` in trees and `none` elsewhere.

## Not modelled

Build system, how long something takes (numbers in the statistics of `-v`), what the arena says with `-v`, the file system beyond what C33, C34 and
C38 need, the JSON/S-expression grammars of external tools, `flex`-like performance
behaviour, memory exhaustion, and the threads themselves (only the protocol of the pool).

## Where code and claim disagree

Each entry is proved as a `*_counterexample`; the theorem with the suffix `_partial` says what
remains true.

* C04, C06: a target name with a colon or a project like `@~x` does not print as parsed.
* C08: `GlobbingToRE2` does not quote the text after the last `*`. With dots only, too much is selected, never too little.
* C12, C13: `not` followed by blanks and `in`: one token that ends elsewhere (`not inner`).
* C15: some malformed files are accepted without an error message (holes in the tree).
* C16: parentheses are not kept; strings with both kinds of quotes, numbers before a dot, `not` before
  `in...`, nested `if` without `else`, missing variables; a visibility or location with a newline
  ends the comment line.
* C17: triple quoted strings with `'''`.
* C20: null operand of `+` after a syntax error; a variable named like a called function.
* C22: the arena does not align what it hands out.
* C24: as C12; lines behind a syntax error are not indexed. What is counted is stated exactly (`counted`, `asCounted`: the text
  with blanks for those newlines), and the same is used for C12, C110, C113 and C116 to C122.
* C27: a deprecated dependency is removed though it is the only provider of a used header; two
  dependencies are replaced by a third library that provides the headers of both.
* C28: a library that is `testonly` is added to a binary that is not.
* C29: a missing or empty visibility counts as public; deprecated libraries are not visible in
  their own package.
* C33: two directories on different file systems with the same inode: only one is entered; in file
  systems without inodes a link cycle is walked for ever.
* C34: a file whose size is 0 according to `fstat` (`/proc`) is taken to be empty.
* C35: files with newlines in their path may be lost by pruning.
* C36: `**/x` also accepts `ax`; `**` at the end accepts one segment only. (And `glob()` does not stop at
  directories with a BUILD file, where Bazel does: example beside C69.)
* C38: a path that is accessed as file and as directory is recorded once only; paths with newlines.
* C39: texts are escaped as in C, also in JSON (`'`, bytes that are not ASCII) and in CSV (`"`, `\`).
* C41: an external directory with a name that begins with `@` is never recognised as known.
* C45: a lone quote hides all later include directives; `#include"a.h"` and `b.h2` are not seen.
* C46: normalising `.//./foo.h` yields `./foo.h`.
* C47: keyword arguments of nested positional calls leak; rules in assignments are not seen.
* C48: names are not quoted in edit scripts: a quote or `;` in the name of a dependency is read by the shell.
* C50: the package of `.github/BUILD` is taken to be `//github`.
* C51: a range that ends in a newline has end column 0 on the line after.
* C54: `0o19` and `1.9` are accepted as numbers 1.
* C55: raw strings, octal escapes at the seam of a concatenation, comprehension variables and
  several variables on the left change the meaning of a file when it is elaborated.
* C58: a library that includes its own `textual_hdrs`, or its `hdrs` with `include_prefix`, is told
  to depend on itself.
* C60: files of an unknown external project are looked for in the main project.
* C61: the BUILD file of the top directory is looked for in `/`.
* C62: a directory called BUILD leads to a null pointer that is dereferenced.
* C63: a link that is listed before the directory it leads to hides that directory.
* C65: arguments that are given twice cancel themselves, in the name of the log.
* C66: the file name of a path that is made of `a` and `b/c` is taken to be `b/c`.
* C67: a grep pattern that matches the empty string never ends.
* C68: a syntax error in a visibility list (`visibility = ["a", =]`) leaves a missing element, which
  `print` dereferences.
* C70: with an unknown option bant prints its help and succeeds.
* C71: `-E` is documented but unknown.
* C72: `-f ''` selects csv.
* C73: with `-q` some failures are silent (`bant -q dwyu`).
* C74: the output file is truncated though nothing is run (`bant -o file dwyu`).
* C75: projects that are only referred to in `srcs`, `hdrs` and the like are not listed.
* C76: the compilation database has commas before closing brackets; nothing is escaped in it.
* C77: `include_prefix` in the main project ends in an exception; the target name `:` in access to a missing value.
* C78: a directory may be given twice; one that is called like a project replaces the directories of that project.
* C79: options are also taken from `build:asan` and from comments, though a remark in the code denies it.
* C80: headers of libraries with `strip_include_prefix` are not found with the flags. A directory in `includes` is seen from
  the package for the flags, but from the root by `lib-headers` and `dwyu`; so for packages that are not at the root,
  headers are not found with the path by which they are associated with the library.
* C81: `bant parse` succeeds though files have syntax errors.
* C85: of `BUILD` and `BUILD.bazel` in the same directory, the one that is listed first is opened.
* C86: with `-r`, `list-targets` prints all targets of the packages that are loaded, not only those reached.
* C87: `lib-headers` also prints headers of libraries that do not match, with an empty list.
* C89: `aliased-by` ignores `-r` but for printing aliases of other targets.
* C90: `genrule-outputs` attributes a file to another rule if dependencies are followed.
* C91: dependencies that are computed (`["a"] + ["b"]`) are empty, unless a dependency leads to the package or `-e` is given.
* C92: a dependency `@~1//foo:x` is shortened to `@//foo:x`, and that, in the next run, to `//foo:x`.
* C93: the edits of one run can lead to packages that were not loaded before; then there is more to say in the next run.
* C94: a library of the main project that is suggested to a rule of another project is written without `@`, and so means a library of the other project.
* C95: if a directory has `BUILD` and `BUILD.bazel`, the one that the file system lists first is used (see also C85).
* C96: `not in` is one word only if there is nothing but white space in between; with a comment there, `not # why` and `in` on the next line is an error.
* C97: a list with a syntax error such as `deps = ["b", =]` has a null pointer as element, and commands that look at strings in lists dereference it (`AppendStringList`, query-utils.cc).
* C100: there is a comma before the closing brackets (C76).
* C103: without `-e`, most commands do not see values that have a name (`hdrs = HDRS`); see also C91.
* C105: unknown headers are not mentioned without `-v`; headers of libraries that are deprecated or not visible are
  passed over in silence always.
* C106: `Would add //p:t, but not visible` is only ever said of libraries that are visible, but `testonly`
  (the reason is given by another message).
* C107: an own header that is included without its directory (`#include "x.h"`) is not pointed out: the first check
  already accepts it, and the second one (with an empty package path) is left with `#include "/x.h"`.
* C110: a newline in `not in` is not counted, so that locations behind it are one line off; a name that is made by `+`
  or `glob()` has the location of the `+` or of the word `glob`.
* C111: a comment `# keep` behind a dependency that is made by `+` is ignored, since the text is not in the file; if a
  dependency is in the list twice, and kept once only, its removal is suggested.
* C112: as C97.
* C113: the place in a message is one line off behind a `not in` with a newline in it.
* C114: for `a[=` the message is "Expected ':' or ']'", and for `a[:=` it is "Expected closing ']' of array access", but
  neither `a[]` nor `a[:]` is accepted.
* C117: if a project that is declared in MODULE.bazel is not extracted, this is said only if there is one in WORKSPACE (or
  WORKSPACE.bazel) that is not extracted either.
* C124: if the included headers are provided by two libraries each on its own, and a rule depends on two others that provide
  one of the headers each, then the two dependencies are removed and nothing is added (but the choice is reported).
* C126: if two genrules have the same output, the one that comes first is taken for it; likewise for two `cc_proto_library` of
  the same protocol buffer in a file.
* C127: for the same reason, `dwyu` suggests the one of two such libraries that comes first in the file.
* C129: if a directory has `BUILD` and `BUILD.bazel`, or the same file is found twice, both are counted as read and parsed,
  although one of them is used; what can not be read is counted as read.
* C130: a target without rule is not remembered as visited; if it is needed again by a target farther away, there is a round more.
* C132: a directory that is met again (same inode) is not searched again, and not counted.
* C133: packages that do not exist are looked for in each round in which they are needed.
* C134: without `-e`, most commands do not see what `glob()` finds (as in C103).
* C135: with `-e`, a header is found under another path if `include_prefix` is a variable.
* C136: a directory with the name `_tmp`, `.cache` or `.git` is not looked into when `//...` is searched, but it is when
  it is asked for; so asking for less may give more.
* C137: `(a,)` is a tuple with one element and `(a)` is just `a`, so this comma matters (as in Python).
* C144: without `-e`, most commands do not see the values in `select()` (as in C103).

What a definition leaves out is said in the comment of the definition, with the lines of the source
it stands for.
