# Design of the formal model of go-update-lens

The subject is the Go source under `/repo/lens` at the pinned commit.  It is read as text.
The model is written in Lean 4 (`/verif/lean`), function by function; every definition cites
the file and lines it models.  The properties are listed in `properties.jsonl`; which theorem
establishes which property is recorded in `MANIFEST.json`.

## Trusted base

* Lean 4.33.0's kernel.
* The standard axioms `propext`, `Classical.choice`, `Quot.sound` (no others; `Verif/Audit.lean`
  prints the axioms of every property theorem during the build).
* The translation from Go to Lean, made by hand.  It is the main thing to review.  Conventions:
  * Go `string`/`[]byte` → `List UInt8` (`Bytes`) where bytes matter, otherwise `String` or an
    abstract type with decidable equality.
  * Go `int` → `Int`/`Nat` where the code cannot overflow with realistic sizes (stated at the definition);
    fixed-width Go types (`uint32`, `uint64`, `int64`) → `UInt32`, `UInt64`, `BitVec` where wrap-around can matter.
  * Go `map[K]V` → association list with distinct keys (iteration order = list order, so
    "independent of iteration order" is "invariant under permutation").
  * `error` results → `Except`/`Option`.
  * Goroutines, file systems, databases → explicit state machines with a step relation or step function;
    a crash is "stop after any prefix of the primitive steps".
* Third-party code is not modelled: badger is taken to be a transactional key/value map, msgpack a faithful
  serialiser of the `enc*` structures, SHA-1 an arbitrary function (collision freedom appears as a hypothesis),
  `go/ast`, `go/ssa`, `net/http` appear only through the data they hand to the modelled code. The exception is go-difflib
  v1.0.0, which is modelled function by function in `Verif/Diff` from its published source (not part of `/repo`); that this is its source is trusted.
  The same holds for the part of Go's package `flag` in `Verif/Flags`.

## What is not modelled at all

Type checking and SSA construction (go/packages, go/ssa, VTA call graph construction), the Go
printer/parser, HTTP transport, chart drawing, process execution, logging, timing.

## Layout

Each area `X` has `Verif/X/Model.lean` (definitions citing Go lines), `Verif/X/Spec.lean` (independent
specification, when one is needed), `Verif/X/Lemmas.lean` (helper lemmas) and `Verif/X/Props.lean` (property theorems
with a concrete `example` for the hypotheses of each).

## Plan per property

Storage (`Verif/Storage`)
* C01 memStorage as an association list; refinement to a map `Key → Option Blob` over all histories, by induction.
* C02 memory of mutable buffers: storage and caller hold references; invariant that the storage's references are never shared.
* C03 badger model: physical store = map; SaveState/LoadState/DeleteState transcribed with the regexp, part keys and decimal
  numbers as byte strings.  Refinement under hypotheses (non-empty blob, blob not a marker, key without the reserved prefix);
  negation witnesses for each hypothesis.
* C04 same model: invariant characterising all physical keys; part sizes.
* C05 prefix view over an abstract store; refinement and non-interference.
* C06 two-transaction load as a state machine against arbitrary transactions; negation witness; partial theorem for unsplit values.

Wire protocol (`Verif/Wire`)
* C07 writeVarint/readVarint on bytes, UInt64; zigzag on BitVec 64.
* C08 inductive value/field trees; encoder and fuelled decoder; round trip by induction.
* C09 streamField over an explicit heap, composed with the decoder.
* C10 prefix-freeness: decoder on any strict prefix fails.
* C11 decoder instrumented with the list of reservation sizes; witness for struct counts; partial bound for the rest.
* C12 readVarint on arbitrary bytes: exact characterisation of accepted inputs; witness of silent truncation.
* C09, C13, C14, C16, C86 are in `Verif/Capture`. A value is an inductive term with references into a heap; addresses and object identities are
  separate, because different objects can have one address. The trace of `visited` follows Go's rule that a map made by a callee stays there.
  Trusted: `reflect`, `fmt.Sprint`, `utf8.Valid`, `runtime.Callers` (at most 2048 frames); no other goroutine changes the value meanwhile.
* C13 heap model: depth/length bounds; termination given no pure pointer cycle; witness of non-termination.
* C14 marker soundness (a marker names a part at the same address); values without repeated addresses are captured as their unfolding; witnesses
  of false cycle markers.
* C15 limitLensMonitorStringSize: exact shape, injectivity on (length, prefix).
* C16 comparison function on a value type: total preorder without NaN, hence sort result independent of input order; NaN witness.
* C17 handler decision function.

Results (`Verif/Result`)
* C18/C21 encoder/decoder with dictionaries transcribed; round trip under injectivity of ids on the occurring trees; witness of corruption.
* C19 ID as a function of serialised bytes and an arbitrary hash; witness of collision; partial injectivity theorem.
* C20 flatten: leaf paths; witnesses; partial theorem for dot-free non-empty names.

Monitoring (`Verif/Monitor`)
* C22 CAS loop state machine. C23 handler/goroutine state machine with striped locks and wait group; deadlock witness.
* C24/C25 stable-field combination, transcribed; specification by paths. C26 key function. C27 path trimming.

Comparison (`Verif/Compare`)
* C28–C32 CompareTestResults transcribed (single-threaded sum; the goroutines only write their own slot).
* C33 DiffValues over any diff library (`Compare`) and over the model of difflib (`Diff`).

Modules (`Verif/Module`)
* C34–C36, C37 (semver transcribed), C38 traversal with visited set, C39 bitmap from opcodes, C40 filter, C41 escaping.

Static analysis (`Verif/Static`)
* C42/C43 reverseDFS over a finite graph; exact reachability; schedule independence as set union. C44, C45.

Files (`Verif/Files`)
* C46/C47/C48/C76/C77 file-system state machine; every state between steps is logged, so a crash is a state of the log. Failures are inputs.
  Not modelled: directories, modes, hard links, the concurrency of `Commit` (different files), two tool processes at once.

Instrumentation (`Verif/Returns`, `Verif/Calls`, `Verif/Lines`)
* C49 (`Returns`) statement language with Go's control flow (no `goto`), everything else opaque with an arbitrary effect; semantics as an
  interpreter (loops bounded by a parameter, the theorems hold for every bound). When plain variables among results are read is left open by Go
  and is a parameter. Not modelled: types, deferred calls, conversions to the result types, whether the produced code compiles.
* C50/C87–C90 (`Calls`) expressions, receivers and statements with an interpreter that records calls and reports in one trace; results of calls,
  what methods do to their receiver and who recovers are arbitrary functions. The rewriting is transcribed statement by statement. The proof
  is a simulation whose relation is `Reported`. Not modelled: function literals of the program (and so the second look at generated ones),
  labels on `break`/`continue`, types, whether the produced code compiles, calls that change variables other than their receiver.
* C91–C93 (`Panics`) programs as trees of effects whose continuation depends on the result; `defer`, `panic`, `recover`, `Goexit` with Go's rules
  (a deferred function can stop only the panic because of which it runs; panics and `Goexit` in deferred functions replace panics). Points are put
  into all functions by name. One equation gives everything: the trace with points is the trace without, with the messages at their places.
  Not modelled: other goroutines, non-termination, failing messages, the text of crash reports and stacks.
* C94 (`Ends`) control flow of bodies as a relation (conditions and calls come out any way), Go's rule on terminating statements as part of the
  specification, deferred recoveries. Not modelled: `goto`.
* C150 (`Blocks`) the same analysis on SSA form, which is the one used for callers in the project: blocks with successors and a recover block; `SSA` states what
  package ssa guarantees of its functions (trusted), `Enters` and `Gets` are executions.
* C95/C96 (`Funcs`) workers as interleaved steps, one step for each insertion, ids as any numbers not given before. Invariants tie maps to points and
  requests to points. Not modelled: what a point looks like (`Returns`, `Panics`), the client files, the user's extension maps.
* C97 (`Funcs`) extraction and comparison of functions over identifiers and printed definitions. Not modelled: printing.
* C98–C101 (`Workspace`) paths as components with `filepath.Clean`, `Join` and `Rel`; a file system without links; `filepath.Glob` a parameter; the
  specification follows each entry from the workspace root. Not modelled: parsing of go.work and go.mod files (a library), errors other than missing
  directories, malformed globs and unreadable go.mod files.
* C102–C104 (`Fields`) decoded fields to recorded trees; texts of integers, booleans and slices written out, texts of floating point numbers and hashes
  as parameters with stated assumptions. The specification follows paths. Not modelled: `fmt`'s treatment of anything the decoder does not yield.
* C105–C107 (`Runs`) test functions, processes and servers as a transition system; invariants over all reachable states, a measure for termination.
  Messages are opaque; ghost state keeps all messages sent. The number of servers and the group limit are as in the code. Simplified: a handler whose
  setting fails is not stored; the client cache and the source edits before the runs are not part of it; a process only sends to the port it was given.
* C108–C109 (`Scope`) the scan for visible names over statements with positions against Go's scopes, by induction on the statements, with earlier
  returns already replaced.
* C110–C112 (`Temps`) the block for one return: temporaries with and without types, reported fields, results; executed under an abstract type system
  (`Sys`, `Laws`: assignability, untyped constants with default types, interfaces, nil). The specification is the meaning of the original return.
  Whether an identifier needs a temporary comes from the type checker and is a parameter. Not modelled: `return (f())` with several values in
  parentheses (would be taken for one value), effects and their order (`Returns`), names of the program beginning with `lenSynthetic`.
* C113 (`Zero`) the return added at the end: zero value expressions by the spelling of the type against kinds of types and names in scope.
* C114–C118 (`Copy`) `CopyDir` and `WriteChmod` as transition systems: walk, goroutines with a limit, context, failures at any operation; files are written
  in pieces. Invariants over all reachable states, a measure for termination. Links are resolved by a separate specification over a file system.
  Not modelled: modes and times, files that are neither regular nor links nor directories (opening a FIFO would block), a source that changes during
  the copy, and a temporary directory inside the source (the walk would then copy the copy).
* C119–C121 (`Client`) the client in an instrumented package: a start of the package as a list of events (variables in any order, `init` functions by file
  name, program), requests with any responses; URLs are taken apart by a separate parser in the specification. The template as declarations with
  values, against what the names stand for (with `iota`, repetition, calls with several results). Not modelled: goroutines, timeouts, printing.
* C122–C124 (`Select`) the script with the tests of each file as text, read by a model of the part of bash it uses (assignments within double quotes, word
  splitting) and of `-run` patterns; the relation of tests and files is stated separately. Other constructs of bash give no result. `filepath.Abs` is a
  parameter. Not modelled: a same-named test in another package of the project runs as well, which only makes the selection larger.
* C125/C126 (`Diff`) the difference library: longest matches, matching blocks, operations, groups, unified text. The text is read by a separate parser that
  applies it to the old value (C33). The recursion of the library is bounded by the number of lines, which is enough (`blocks_chain`).
* C51/C78 (`Lines`) line insertion over token layouts.
* C52 (`Batch`) grouping by file for workers, interleavings as an inductive relation; the directories of files are stated apart from the function that finds them.
* C67/C68/C79/C80 (`Mutation`) the mutation script as commands with failures and signals, the tool's counts, line scope on top of `Lines`, workers
  against `Restore` as interleaved steps.

Utilities (`Verif/Util`)
* C53 token state machine. C54 lock state machine. C55 rolling buffer. C56 tee tree. C57 env. C58 path cleaning. C59 lines.

Engine and report (`Verif/Engine`, `Verif/Report`)
* C60–C62, C69, C81 (`Engine`) decision logic with provider and file-system outcomes as input and an effect trace as output. Providers that panic, the content of
  copies and the times in the report are not modelled.
* C63–C66, C82–C85 (`Report`) report data, the way through the JSON file and back, the table (sorting as any function with the contract of
  `slices.SortFunc`), labels in rational arithmetic. Not modelled: drawing, layout, colours, times of the run.

* C127–C130 (`Flags`) `ParseFlags` with Go's package `flag`; a command line is stated separately as a list of settings in the allowed forms. Integer
  texts and path joining are parameters. Not modelled: usage texts, flags registered by other packages.
* C131–C133 (`Pipeline`) one test from the messages of its runs (astexec.go 520–566, 580–599, 700–832, 880–917) to its report, put together from the
  definitions of `Fields`, `Monitor`, `Result` and `Compare`; stated only with the values shown by the n-th call of a function along a path of project frames. A
  run is any sequence of messages. `*_stored_partial` adds encoding and decoding of the results between the steps. Not modelled here: the transport (`Wire`),
  which tests are run (`Select`), sums over tests (`Engine`).
* C134–C135 (`Reach`) the two static analyses one after the other, on two call graphs related by which nodes are copies of which; stated with ways as lists of
  nodes. That calls between copies in the graph with tests are calls in the graph without is a hypothesis (class hierarchy analysis of the same code).
* C136–C137 (`Pkgs`) `parseDir`, `makeFileFilter`, `detectPackageName` and the choice of files in `buildTypesInfo`; what build constraints and the parser say
  about a file is part of the entry. Not modelled: the type check itself; the directory changing while it is read.
* C138–C139 (`Total`) a whole update: both phases of `RunModuleUpdateAnalysis` for all tests, with encoding, prefixed storage (in memory and on disk), loading,
  listing and comparison. A phase is its tests one after the other in any order; that this is enough for tests running at the same time is C140, and that they do not mix their messages is C105–C107. The msgpack library is
  a parameter with two assumptions (`Faithful`): what is read back is what was written but for empty maps left out, and a result is written as a map.
* C140 (`Sched`) the tests of a phase running at the same time: a state machine whose steps are a test being started, its stable result being loaded, its result
  being saved, an error while saving and an error while running; the first test runs alone and at most `limit` tests run at once. Each call of the storage is one
  step, as both storages make it (a lock, or a transaction); a phase reads and writes keys of different tests or of different prefixes, so the mixtures of C06 do not arise.
* C141–C142 (`Verdict`) the end of `Run`: what the comparison found is given to `WriteReportFiles`, and its JSON file and chart table (`Report`) are related to the runs
  of the tests through `Total` and `Sched`. Taken from before the update and left open: module changes, callers and versions. Not modelled: the drawing of the charts.
* C143 (`Timing`) the same for the list of time changes: `timeline` gives the times of each call of the first run that has a counterpart in all other runs, and the
  specification of C32 says which of the times between them are listed.
* C144 (`Workspace`) the patterns `LoadProjectCallGraph` gives to the loader; what they stand for is said by `Means`, as for those of the tests (C100).
  Loading the packages is not modelled.
* C145, C146 (`Whole`) the engine from the changed functions to the report: callers and tests selected (`Reach`), entry points put in (`Module.filterByGo`), tests run
  before and after the update (`Total`, `Sched`), report written (`Report`, `Verdict`). `Written` says which reports may come out; it is stated for the two early
  returns and for the full run. `Leads` (a test that should be run), `CanReach`, `Entered`, `TooOld` and `Unaffected` are the specification. The list of changed
  functions and the call graphs are given (C95–C97, C134 say what they are); so is the set of entry points that could be put in (C95, C88).
* C147–C149 (`Seen`) from the memory of the tested program to the report: `sent` joins the capture (`Capture`), the encoding and the server (`Wire`) and the maps of
  points; `Shows` says which text a value of the program should have at a path, without looking at messages; `Displays` is that for a moment of the program. C148
  puts it together with C141: `Makes` says that a run comes from a program. C149 adds panics and entry points (`requestOf`, `monitor`, `runOf`), so that everything the
  monitor knows of a run is derived from messages of the program; `Case` is a test given by the programs it runs and `Tells` says what its entry should be, in terms
  of events only. Messages are handled one at a time, in a given order; whether the test fails is given. That the injected code calls the client at the right places with the right
  variables is C49, C50 and C87–C90.
* C151 (`Look`) colours of labels and table cells and the scale of axes, as decision logic; the cells are tied by C142 to what the tests did. Positions and sizes are
  not modelled.
* C152 (`Advice`) the texts of the errors of loading modules and their reading by the engine; which words a text contains is proved by cutting it at its separators.
* C153 (`Budget`) the settings of the database and the transaction of a save as a list of entries (which does what the `dbSave` of C03/C04 does), against the limits of the
  library as known (badger v4: sizes of value log files, value threshold, batch size and count); these limits are trusted.
* C154 (`Target`) the table from files to tests and the pattern that the script makes of it, read as alternatives between bars.
* C155 (`Tidy`) no new code: replaces the condition `Orderly` of C149 by conditions on the programs (`Timely`, `Spoken`, `Separable`, `Hashed`), and adds that programs that do
  the same (`Alike`) give an empty report.
* C156 (`Args`) the call instrumentation with types, constants, scopes and imports, over the type system of C110 (`Temps`): `passed` is what a call gets by the Go
  specification, `outcome` what the generated code reports and passes, if it compiles. `C156_compiles_partial` is an equivalence: exactly these calls still compile. An
  expression comes with its type and value at the call and, where its statement hides names, in front of the statement; how it is evaluated is in `Calls`.
* C157 (`Jumps`) function bodies as blocks with labels, `goto`, `break`, `fallthrough`, declarations and clauses; which statements get a report or are replaced is a mark on
  them. `Valid` and `Terminating` follow the Go specification.
* C158 (`Stack`) `captureLensMonitorStack` on the list of active functions, the three of the client first; the result is related to the program's own stack, to what the server's
  decoder accepts (`Wire`) and to the path by which states are matched (`Seen`). `runtime.Callers` (a slice filled from the innermost function on, inlined functions included) and
  `runtime.CallersFrames` are trusted. Error messages, whose stack also has the posting function of the client, are not covered: their stack is only logged.
* C159 (`Beside`) goroutines as functions from their results so far to the next operation (lock, unlock, read, write of maps; a write is two steps), reports as lists of maps gone through before
  an operation. All interleavings; simulation in both directions. Trusted: the runtime ends a program that accesses a map in the midst of a write by another goroutine (it does so if it
  notices). Not modelled: other shared memory, channels, what the report shows of a map changed meanwhile.
* C160 (`Keys`) `streamField` with the methods `fmt.Sprint` calls for map keys, which can make reports in turn; what is noticed is a trace. Trusted: `fmt.Sprint` calls the method of the key and
  nothing else. Not modelled: methods of parts of keys, methods that panic (`fmt` recovers), texts.
* C161 (`Attempt`) the ways in which `go test` ends, put before `Pipeline`: an attempt that is not built sends nothing, one that is out of time sends some of what it would; both count as failures.
* C162 (`Serve`) the analysis and the goroutines of its servers as a state machine in which 100 ms may be over before a goroutine has tried to listen. Trusted: `Shutdown` closes a server and
  keeps one that has not begun from listening. Not modelled: failures of a server after it has begun to listen, tests run at the same time (runs are steps), requests under way when a server stops.
* C163 (`Nodes`) the sorts of functions in a call graph (declared, wrapper of a generic function, literal, initialiser of a package, other wrapper) with the identifiers the code gives them, put before
  `Static`. Trusted: what `go/ssa` gives for each sort (package, name, syntax; wrappers have no package), that package paths have no ':' and names no '.', '$' only in names of literals.
* C164 (`Locks`) the operations of `ASTModifier` as lists of instructions (take and give back a lock, start and await a goroutine), with any number of modifiers over the shared locks of files.
  Trusted: mutexes and `errgroup` work as documented. Not modelled: what is done between the instructions (files, syntax trees), which always comes to an end; callbacks of `InsertFuncLines` take no
  lock (the only one, mutation.go:103–108, does not).
* C165, C166 (`Inject`) the goroutine that puts the client into a directory and those that instrument and write its files (`injectMonitorPoints`), as a state machine over the files on disk; each read of a
  file is a step, `os.WriteFile` is two (cut, then written). Before `Pkgs` (the package found), `Temps` (fields) and `Compare` (differences). Trusted: a file that is cut is parsed to its own package or not at
  all; instrumented code passes the type check exactly if the client can be read (C110, C156). Simplified: both files of the client are one; a directory that is instrumented both as project and as module has
  one client.
* C167 (`Versions`) graphs of requirements put before `Module`'s analysis; the specification is minimal version selection (all versions needed, the highest wins) and `replace`. Trusted: tests are built with the
  versions of the specification, `go get` to a higher version sets the requirement. Simplified: one go.mod file, which lists all modules (`go mod tidy` since go 1.17 lists those that packages come from);
  graphs are not pruned. Not modelled: lowering versions, `exclude`, vendoring.
* C168 (`Script`) the two mutation scripts on a disk with all files: words of the script split and taken for patterns as bash does, `mv` and `cp` with any
  number of arguments; with paths that need no quotes both are the script of `Mutation`.
* C169 (`Again`) providers, databases and directories over any list of starts and ends of runs; an invariant over the steps. Trusted: the database refuses a directory
  that is in use, and its calls fail once it is closed.
* C170 (`Order`) `Module`'s analysis under two orders of every map and of the requests; what is analysed is compared with an inductive specification that knows no order.
* C171 (`Modes`) files with nine bits of permissions: commits with a backup, restore, copy of a tree. Trusted: what `os.Create`, `os.WriteFile` and a rename do with permissions.
* C172 (`Leave`) the parts of `Files` put together in the order of `RunModuleUpdateAnalysis`: instrumentation and restore, backup of go.mod, update, instrumentation and restore, restore of go.mod.
* C173 (`Outside`) `Monitor`'s `trimStackFile` for files outside of the project, with GOPATH as its second directory as the tool passes it; the name of the cache directory is in the specification.

Where the code violates a property, the negation is proved with a concrete witness (theorem name ends in `_violated`)
and the part that does hold is proved as a `_partial` theorem; these are listed in "Findings" below as they are established.

## Findings

Places where the code does not do what the property says. Each has a `_violated` theorem with a concrete witness unless marked
"(note)", which means it was seen while reading and lies outside the model.

Storage
* C03 badger: empty blobs, blobs that look like a part marker and keys with the reserved part prefix do not survive.
* C04 a key hidden behind a part key leaves parts behind.
* C05 prefixes isolate only if no prefix is a prefix of another.
* C06 a load between two transactions of a save sees a mixture; delete reports an error after removing part of the data.

Wire protocol
* C11 counts of struct fields are reserved without bound.
* C12 ten-byte varints silently lose their top bits; point ids are cut to 32 bits.
* C09 the server rejects messages with a text of 4 GiB or more, which the client sends for a panic with such a message (`C09_text_violated`).
* C13 `var x any; x = &x` (or `type P *P`) keeps the capture in the unwrapping loop for ever. Map key names and cycle markers are not cut. Pointers behind
  interfaces are not remembered: a struct with two interface fields leading back to it becomes 2^100 fields with the default limit.
* C14 values referenced twice, functions stored twice and separate empty slices are reported as "<cycle:…>"; the content of the second place is lost.
* C86 cycles that go through interface fields are unrolled to the depth limit.
* C16 NaN keys, interface keys holding types with the same short name and (between runs) pointer and channel keys select different entries.
* (note) Map keys are printed with `fmt.Sprint`, which runs `String` methods of the program; the entry of a NaN key is sent as "invalid".

Utilities
* C53 taking a token after `Join` waits for ever. C55 limits below 5 are exceeded. C56 a tee without writers panics.
* C58 a name such as `..x` counts as outside the directory.

Results
* C18 nested trees whose keys clash, and stale extension frames, do not survive a round trip.
* C19 nesting and inner values are not hashed. C20 names with dots. C21 cyclic data never decodes.
* The order in which the dictionaries are filled in one composite literal is unspecified in Go (note).

Monitoring
* C23 an unknown point id makes the result wait for ever. C26 names with `:` and `|` are ambiguous. C70 the highest point id is one too high.
* C27 names such as `..x` and an unclean GOROOT (slice panic).
* Baseline frames are sorted by time while the recording filter counts occurrences in order of arrival (note).

Comparison
* C29 a vanished frame without fields is not counted. C31 post-only tests give a nameless entry.
* C32 32-bit overflow; a later small improvement hides a large regression. C33 values above the length limit are compared by hash, and only
  the last four characters of the hashes are shown: two different values can be reported as the same text on both sides.
* C126 the library drops lines that make up more than one in a hundred of at least 200 lines. Such a line can then be listed as changed where it is not; a text
  of 200 equal lines that lost a first line is listed as changed altogether. In `computeChangeLineBitmap` unchanged lines are marked as changed.

Command line
* C127 the number of arguments left is never looked at: `-tmpcopy false -mutationscope none` makes the copy and mutates lines, as `false` ends the flags.
* C128 with a GOPATH of several directories the module cache is taken to be the whole list with `/pkg/mod` behind it.
* C129 a custom flag of a type other than string, int, bool is left out without an error.

Modules
* C35 `1.21rc1` counts as below the minimum. C38 a module requested twice loses its changed functions.
* C41 versions are not escaped in module cache paths.
* C170 two dependencies at one level that require a third in different versions: which of these is compared depends on map order, so two runs of the tool can differ.

Static analysis
* C42 of two nodes with one identifier only one is searched (in real call graphs this concerns package initialisers, for which nothing is
  lost; the theorem covers them).
* C43 tests that reach a caller through another test or through `main` are not found.
* C73 of several `init` functions of a package one keeps its exported edges.
* C75 methods and names such as `Testify` count as tests.

Files
* C46 a leftover `.bkp` is never restored and prevents a new backup (even one that is a link to itself and cannot be read, so the source is lost); a symlinked source is not restored; failed backup copies and a failed second
  generated file are left behind; after a `Restore` with an error the next one does nothing and reports success.
* C47/C76 an incomplete backup (full disk, crash) counts as a backup in the next run, which overwrites the only complete copy.
* C48 a `go.sum` the update creates stays; a failed `go.sum` copy leaves `go.mod.bkp`; a failed `go.mod` rename skips `go.sum`.
* C76 after a crash during the update, the next run overwrites the good `go.mod.bkp` with the changed `go.mod`.
* C115 when a file cannot be copied, `CopyDir` mostly returns "context canceled" instead of the reason, and it returns while other files are still
  being written (`concurrentWalk` does neither).
* C117 `filepath.Walk` does not follow a link at the root: a project directory or GOPATH that is a symbolic link is "copied" as a link, so everything the
  tool does in the temporary directory is done to the original. Absolute links inside the source lead to the original too.
* C172 an error of the restore after the first tests is only logged. The second instrumentation then takes the backup that is left for its own, registers no restore, and the source stays
  changed although nothing fails afterwards (`C172_left_violated`). For permissions see C171.

Return instrumentation
* C49 returns in the rest of an `else if` chain, in `select` clauses and behind labels are not reported; the end of the body is not reported when
  the function has a `return` elsewhere; `return x, f()` with `x` copied first fixes an order the compiler may not have chosen.
* C108 a local type that hides a parameter is passed to the report as a value; a constant such as `1 << 70` is passed as an `int`; in
  `func f() {for i := range 3 {g(i)}}` (not formatted) `i` is passed after the loop. None of the three compiles.
* C109 the receiver of a method is never reported.
* C110 `func f(time int) time.Duration { return 0 }` becomes `var … time.Duration = 0` where `time` is the parameter;
  `func f() big.Word { return big.MaxBase }` becomes `tmp := big.MaxBase` without the type, because both mention `big`; with
  `const offset = 14695981039346656037`, `func f() uint64 { return offset }` passes `offset` to the report as an `int`. None of the three compiles.
* C112 a variable `ret0` and the first result are reported under one name.
* C113 `func replace(old, new string) Result { panic("todo") }` gets `return *new(Result)`, where `new` is the parameter; with a type called `error`
  in the package `nil` is returned for it. Neither compiles.
* C78 the last line of a raw string over several lines counts as code because of the automatic semicolon after it; a line inserted before it
  becomes part of the string. (Also: lines with only `}` count as code for the same reason, contrary to the comment in the code.)
* C52 a file with both project callers and changed module functions (a module under the project) is given to two workers; only the lock of the
  editor keeps their edits apart. The client may likewise be injected twice into one directory.

Mutation testing
* C67 a signal between `mv` and `trap`, or a failing `mv` back, leaves no file or the mutant; the next mutant of that file then overwrites the only
  copy of the original (`.mbkp`). A mutant that does not compile ends `go test` with 1 and is reported as killed, never as skipped.
* C79 `SquashedCount` is taken from the tool's "failed", i.e. exit code 1, which the script uses for mutants the tests did not notice: the score is inverted
  (the comment above the code, "6 passed, 2 failed" at score 0.75, says so too).
* C68 marks count lines of the definition printed without comments, `InsertFuncLines` counts lines of the source: a comment of two lines shifts all marks
  after it. Lines beyond the definition stay enabled. `--match` is not anchored: `Get` selects `GetAll`.
* C80 the early returns in the loop do not wait for the workers, so `Restore` can run before a worker writes; the file stays changed.
* C168 the script of all tests has `$MUTATE_ORIGINAL` without quotes: every mutant of a file with a blank in its path is skipped, as are all mutants if the directory
  for temporary files has one. A path like `/m/[ab]/x.go` is a pattern: if there is a `/m/a/x.go`, that file is moved away and ends up, under the name of the mutated
  file, in place of its content; both the other file and the content of the mutated one are lost.
* Not modelled: `report.json` of the project directory is deleted whoever it belongs to.

Engine
* C60 with `-report-json` given the chart path is never checked (`else if`); an unknown or missing chart suffix is only noticed when the report is written, after
  the whole run. A failed `Prepare` keeps the modules it parsed, a corrected retry analyses them twice.
* C61 module paths without dot and slash (legal for replaced modules) are rejected; a second `@` becomes part of the version. `-module` is not trimmed, `-modules` is.
* C62 no changed module: success without any report, unlike the other early ends. A provider that fails is never cleaned up.
* C81 changed functions that no project function reaches are reported as 0 changed functions.
* C69 a copy that fails leaves the temporary directory (the cleanup function is not returned) and has already switched the project path. A module cache inside
  GOPATH but not at `pkg/mod` gets a path that does not exist in the copy.
* (note) A GOPATH with several entries cannot be copied; relative `replace` directives leave the copy; `CopyDir` returns without waiting for its workers
  when the walk fails.

Report
* C63 a test found twice is listed twice; `performance_changes` is in map iteration order, so two runs differ.
* C64 two results with one identifier get each other's times when read from JSON; strings that are not UTF-8 merge; counts go through `float64`.
* C65 generated tests are sorted after all others, so ten tests with one changed field hide a generated test that fails now. The last comparison of the sort
  ("highest mutations second") compares a text column as a number and never decides.
* C83 coverage and impact are rounded to 100% from 99.95% on, unlike the two other gauges; untracked functions count as covered.
* C151 the coverage gauge takes its colour from the functions reached and its label from those reached or untracked: if no changed function can be watched it says
  "100%" in red. The axes above 20000 have ever more marks.
* C152 the answer about a module that cannot be loaded is guessed from the text of the error: if v1.2.10 is missing and the project has v1.2.1, v1.2.1 is said to be
  missing; of modules published together (x/otel, x/otel/trace) the shorter path is blamed; a directory without go.mod file is said to be missing, and the error is hidden.
* C153 cache budgets below 64 MB are accepted but not kept: the database takes at least 34 MB.
* C154 tests are selected by name in all packages, so tests of the same name in other packages are run against a mutant as well.
* C84 slower runs are labelled with a negative number ("-50% slower").
* C85 "(n more field differences)" counts callers, not fields; which callers are named depends on map iteration. The text is cut at byte 64, possibly inside a
  character (note).
* (note) With no functions, fields or mutations the labels are "NaN%".

Call instrumentation
* C50 the receiver and the arguments of the picked call are moved before the statement. So arguments of a loop condition are evaluated once, those of
  `a && f(g())` always, those of `h() + f(g())` before `h()`, those of `if x = 2; f(x + 0)` before the assignment; `f(g().x)` calls `g` twice;
  `defer f(x)` and `go f(x)` read `x` late; a deferred function that recovers does so no longer; a method with pointer receiver called on a
  field changes a copy.
* C87 a report is sent for `a && f()` when `f` is not called; with two selected calls in a statement the report for the last precedes the first.
* C88 only the last outermost selected call of a statement is reported. Conditions of `else if` and what follows them, labelled statements and all
  evaluations of a loop condition but the first are not.
* C89 `f(f(1))` is instrumented further each time.
* C156 the changed code does not compile for `f(g())` with a `g` of several results; for untyped constant expressions with a name in them (`f(C + 1)`, `f(1 << n)`) and
  a parameter of another type than the default one, as a variable of the default type is made; for constants too big for `int` (`f(math.MaxUint64)`), which are reported as
  `any`; for `if x := g(); f(x)` and other statements that declare a name used by the call, as the report is put before the statement; for functions of packages whose name
  is not the end of the import path (`gopkg.in/yaml.v3`, `…/v2`); and for method expressions `T.Method(x)`. In `err := a(); if err := b(); handle(err)` it compiles, but
  the outer `err` is reported.
* C157 `if done { goto end }; f(g()); end: return` does not compile any more: the variable for the argument is declared between the `goto` and its label.
* C158 Stacks are cut at their innermost 2048 functions, so calls of a recursive function at depths 2048 and beyond have the same path and are matched with each other by position only.
* C159 a report goes through maps without any lock. A function that unlocks a mutex before it returns is reported with the map the mutex is for, while another goroutine may be writing to
  it: the runtime ends the test binary with "concurrent map iteration and map write", though the program is free of races (`C159_unlocked_violated`).
* C160 map keys and values of panics are printed with `fmt`, which calls their `String` or `Error` methods: code of the program with whatever it does. If the method is instrumented and has a
  map with keys of its own type in scope (`names := map[Color]string{…}; return names[c]`), the report never ends: the stack overflows (`C160_endless_violated`).
* C161 a package that does not build once it is instrumented (C156, C157) is taken for one whose tests fail: they fail before the update too, so nothing is compared and the report shows neither
  differences nor regressions (`C161_unbuilt_violated`). The same for tests that take more than 30 seconds (`C161_late_violated`).
* C162 whether a port can be listened on is looked at 100 ms after the goroutine was started, and again before each run only: on a busy machine a run can be made with a server that does not
  listen, what it sends is lost, and after the last run the failure is not looked at any more (`C162_late_violated`).
* C163 for a changed `init` function no function of the project is ever reported (`C163_init`), though it runs before all tests; it shares its identifier with the initialiser of its package, and which
  of them is taken depends on the order of a map (`C163_init_violated`). Wrappers of generic functions have an identifier without package: `a.Map` and `b.Map` are both `:Map`, and of their exported
  calls only one is kept (`C163_edges_violated`).
* C165 the package of a directory is looked for while its files are written: a file that is cut at that moment has no package clause, and the whole analysis ends with an error (`C165_client_violated`).
  A client that is put in is right in all schedules (`C165_name`).
* C166 types are looked up per function while the client may be missing and other files may be cut: for the second function of a file, or next to a file being written, they are known in some schedules and not
  in others (`C166_types_violated`, `C166_sibling_violated`). `return err` then reports `err` and `ret0`, or `err` only (`C166_fields_violated`); as instrumentation is done once before and once after the update,
  a difference is counted where there is none (`C166_report_violated`). The client first, and no writes while types are looked up, would do (`C166_types_partial`).
* C167 the versions of dependencies that are compared are not those of the build: a dependency that the new version of a module requires in a version below that of the project is compared with that lower version
  (`C167_lower_violated`); of two versions that are required the first met counts, not the higher (`C167_two_violated`); what modules that are new to the project require is not looked at
  (`C167_new_violated`); another requested module may need a higher version of a requested one (`C167_target_violated`); `replace` is not looked at: a module that is replaced is compared although nothing changes
  (`C167_replaced_violated`). If none of this occurs, the comparison is exact (`C167_complete_partial`, `C167_sound_partial`).
* C171 backups are made with `CopyFile`, which gives the permissions of a new file, and renamed over the source: after the analysis every instrumented file (and go.mod, go.sum)
  has the default permissions. In the temporary copy no file may be executed, so tests that run a script of the project fail there.
* C169 `DefaultStorageProvider` keeps the storage it opened and `Run` closes it: every later run of the engine gets a closed database, and of two runs at the same
  time the one that ends first closes the storage of the other. `Close` deletes the directory: with `Path` set to one that has files, these are deleted too.
* (note) Function literals in moved
  arguments are searched for `defer` and `go` only.

Panic points
* C91/C92 in a program whose `go` line is below 1.21 `panic(nil)` is caught by the panic point and, `recover()` being `nil`, neither reported nor raised again:
  the function returns normally.
* (note) A panic that passes a panic point is raised anew, so `debug.Stack()` in an outer recovery no longer shows where it came from, and the crash text
  changes to "panic: … [recovered]".

Functions
* C94 a function with results that recovers from its own panic in a deferred call is taken for one that only panics, though it always returns. It
  gets no points.
* C150 the same for callers in the project (SSA form): they are neither watched for returns nor for panics. The return points also have the lines of panics, and do
  not count calls with several results (`return f()`).
* C95 of several functions `init` (or `_`) in a file the last one gets all points; the others are not watched and the report calls both by one name.
* C97 of several functions `init` in a package only the last one counts: a change of another is not noticed. If a function cannot be printed, the
  error is overwritten by the next function, and the function is silently left out.

Running tests
* C105 the handler of a server is looked up when a message has been decoded, not when its connection is made, and nothing waits for messages on their way
  when the process ends (a test may exit while other goroutines are in instrumented code). Such a message is recorded for the second run or for the next
  test on that server (`C105_violated`).
* C106 a message that arrives too late (C105) is in no total although its test has a result (`C106_violated`). The functions reached are those of the first run only; a function reached just in the second run is not counted.
* C173 `RunModuleUpdateAnalysis` passes `gopath` where `runMonitoredTestAnalysis` expects `goroot` (astexec.go:102, 173), so frames of the standard library are reported with
  their full path (`C173_std_violated`), unlike with GOROOT (`C173_std_meant`). So are modules if GOMODCACHE is not at its usual place.

The client
* C119 the addresses of the server are set by `init` in `xx_lens_client_gen.go`, a name that sorts after nearly all others. Messages from functions called by
  `init` functions of earlier files, or while variables of the package get their values, go to an empty URL and are lost; a line is printed for each.
* C120 if such a call goes through an interface, Go's order of initialization may run it before `lensHttpClient` has its value; `Post` on the nil client ends
  the instrumented program.

Selected tests
* C122 within double quotes bash still expands `$` and backslashes, so a mutant of a file with such a path is skipped as if no test reached it (the comment
  in the code says that quotes escape special characters). A package directory with a blank is taken as two patterns.
* C124 `-run ^Name$` in the directory also runs the test of the same name in the external test package (`p_test`); its values are recorded for the first.

Recorded fields
* C102/C103 two keys of a map with the same text (1 and "1" in a map with keys of type `any`; `_` fields of a struct) are recorded as one; which one depends
  on the random order of the map.
* C104 slices of strings are recorded with spaces between the elements, so `["a b"]` and `["a", "b"]`, or `[""]` and `[]`, look the same. Nil and empty maps,
  slices and structs are both recorded as `<nil>`. The type of a value is not recorded.

Workspaces
* C98/C100 an absolute entry with "..." is joined to the workspace root, so the expansion fails (or finds the wrong directories). A directory given once by an
  absolute and once by a relative path is listed twice.
* C99 entries with "..." and absolute entries are expanded to absolute paths, for which both go.mod files compared are the same file: no change in such
  modules is ever reported. If the updated go.work is given by a relative path, "..." directories are looked for in the directory twice (n/n/a).
* C101 the prior version of a module given on the command line is that of the first go.mod file by name which requires it, not the highest.
* C144 a directory named in go.work that has no go.mod file is loaded for the analysis while its tests are left out (the go command refuses such a workspace).

One test from its runs to its report
* C147 a value that is reached by two pointers is recorded once; in the other place there is a note with the path of the first. A change of the value is still seen
  at the first path, but a test in which the second pointer alone comes to point to an equal value shows a difference.
* C131 the baseline is sorted by time, the run after the update is kept in the order of arrival. If two goroutines call a function and their messages arrive
  in the other order than they were made, three identical runs give a report with two changed calls.
* C133 a flaky panic, present in only one of the two runs before the update, is not in the baseline; if it happens after the update it is a difference.

From changed functions to tests
* C134 callers are looked for without test files. A test that calls the changed module itself, or through helpers in test files, is therefore never run, and
  if no other code of the project calls the module nothing is.

Package of a directory
* C136 a file of `package documentation`, which the go command ignores, makes the detection fail with "multiple packages".
* C137 `buildTypesInfo` says it returns nil on any failure, but dereferences a nil pointer when asked about a file of an external test package, or left out of
  the build, beside other sources (`C137_crash_exact`). For a test inside the package the file itself is not among those checked.
* (note) `buildTypesInfo` parses the whole directory while other workers rewrite files of it and the client is written to it; a file seen half-written makes it
  return nil, and the code generated for returned temporaries then comes from the syntactic fallback.
* C139 nothing clears a storage before an update, and `CompareTestResults` lists all keys of the "post" prefix: a storage that is used twice (as
  `SingletonStorageProvider` allows), or a directory with results of an interrupted run, adds entries and differences of old tests to the report
  (`C139_reused_violated`). `DefaultStorageProvider` keeps the storage it opened, which `Run` closes: see C169.
* (note) storage.go 351–355, dead as long as badger compresses: the buffer passed to the decompressor has its full length, and the decompressor appends, so that
  split values would come back with zeros in front.

## Seeded changes

`seeded/LOG.jsonl` records wrong programs the theorems were tried against. Each is an edit of one definition in a scratch copy of the area (sometimes of two areas),
which is then elaborated again. `theorems_failed` lists the property theorems that then rest on a proof that no longer checks. That is what was measured, and it
says less than "the theorem is now false": where many theorems share a lemma about the edited definition (in `Total` nearly all do), they fail together, also for
edits that only break the proof and not the claim. An empty list, however, means that the theorems do not notice the edit; such entries name in
`theorems_tightened` what was strengthened or added. Edits found not to change the behaviour claimed were left out of the log.
