{"id": "C01", "title": "In-memory storage behaves as a map", "statement": "For every sequence of SaveState, LoadState, DeleteState, ListKeysPrefix, ListKeys and Clear calls on an in-memory storage, LoadState(k) returns exactly the blob of the most recent SaveState(k) not followed by DeleteState(k) or Clear, and reports not-found otherwise; ListKeysPrefix(p) returns each live key starting with p exactly once and nothing else.", "quantifier": "all finite histories of storage operations, all keys and blobs", "why_tests_cant": "a test runs a handful of fixed histories; the claim is about every history", "anchors": ["lens/storage.go:memStorage", "lens/storage.go:Storage"]}
{"id": "C02", "title": "In-memory storage is isolated from caller buffers", "statement": "Mutating a byte slice after it was passed to SaveState, or after it was returned by LoadState, never changes what any later LoadState returns.", "quantifier": "all interleavings of storage operations with writes by the caller into any buffer it holds", "why_tests_cant": "aliasing shows only for particular interleavings of mutation and load", "anchors": ["lens/storage.go:memStorage.SaveState", "lens/storage.go:memStorage.LoadState"]}
{"id": "C03", "title": "Disk storage behaves as a map whatever the split threshold", "statement": "For every positive split threshold and every history of operations, the disk storage returns from LoadState exactly what the same history of operations on a map would return, including blobs larger than the threshold.", "quantifier": "all thresholds, all histories, all keys and blobs", "why_tests_cant": "blob length, threshold and previous contents interact; sampling cannot cover blobs that look like internal markers, empty blobs, or keys that look like part keys", "anchors": ["lens/storage.go:badgerStorage.SaveState", "lens/storage.go:badgerStorage.LoadState", "lens/storage.go:badgerStorage.DeleteState", "lens/storage.go:splitRe"]}
{"id": "C04", "title": "Disk storage leaves no orphaned parts and never exceeds the value limit", "statement": "After any history, every physical record in the database belongs to a live key, ListKeys shows exactly the live keys (never internal records), each part written is non-empty and no larger than the threshold, and the parts of a key concatenate to its blob.", "quantifier": "all histories of save/overwrite/delete/clear with blobs on both sides of the threshold", "why_tests_cant": "leaks appear only after specific overwrite sequences (large to small to large)", "anchors": ["lens/storage.go:badgerStorage.SaveState", "lens/storage.go:badgerStorage.DeleteState", "lens/storage.go:badgerStorage.ListKeysPrefix"]}
{"id": "C05", "title": "Prefixed storages are isolated from each other", "statement": "Two storages made by KeyPrefixStorage over the same backing store with different prefixes (such as pre and post) never observe each other: each behaves as its own map, and Clear on one never removes or changes a key of the other.", "quantifier": "all histories interleaving operations on both views, all keys, all pairs of distinct separator-free prefixes", "why_tests_cant": "key collisions depend on the content of keys and prefixes", "anchors": ["lens/storage.go:KeyPrefixStorage", "lens/storage.go:prefixStorage"]}
{"id": "C06", "title": "A load concurrent with a save never returns a mixture", "statement": "A LoadState that overlaps SaveState/DeleteState calls for the same key returns one of the values that was current at some moment during the load, never bytes from two different saves and never an error caused by the overlap.", "quantifier": "all interleavings of the transactions of one load with any number of saves and deletes", "why_tests_cant": "the race window is a few microseconds and depends on transaction boundaries", "anchors": ["lens/storage.go:badgerStorage.LoadState", "lens/storage.go:badgerStorage.SaveState"]}
{"id": "C07", "title": "Numbers survive the wire", "statement": "Every uint64 written as a variable-length number and every int64 written in zig-zag form is read back unchanged, the reader consumes exactly the bytes written, and at most ten bytes are used.", "quantifier": "all 2^64 unsigned and all 2^64 signed values, any bytes following", "why_tests_cant": "2^64 inputs", "anchors": ["lens/astclient.go:writeVarint", "lens/astclient.go:writeSignedVarint", "lens/astsrv.go:readVarint", "lens/astsrv.go:readSignedVarint"]}
{"id": "C08", "title": "Every monitoring message survives the wire", "statement": "For each of the four messages (point, point state, panic, error), decoding the bytes produced by the client yields exactly the point id, time, message text, call stack and field tree that were encoded, and consumes the message exactly.", "quantifier": "all ids, times, strings up to 4 GiB, stacks of up to 2048 frames, and all field trees of all value kinds", "why_tests_cant": "field trees are recursive and unbounded; value kinds interact with lengths", "anchors": ["lens/astclient.go:lensEncodeMessagePointState", "lens/astclient.go:writeStackFrames", "lens/astclient.go:streamField", "lens/astsrv.go:decodeMessagePointState", "lens/astsrv.go:readValue", "lens/astsrv.go:readStackFrames"]}
{"id": "C09", "title": "The server accepts everything the client can send", "statement": "When client and server are configured with the same field length limit, every snapshot the client produces, for any program value, is decoded without error.", "quantifier": "all program values (any shape, sharing, size), all limits", "why_tests_cant": "values are arbitrary graphs; the limits on both sides have to agree for every kind", "anchors": ["lens/astclient.go:streamField", "lens/astclient.go:streamValueSlice", "lens/astsrv.go:readValue"]}
{"id": "C10", "title": "Truncated messages are rejected", "statement": "If a message body is cut short at any byte, decoding fails; no strict prefix of a valid message decodes successfully.", "quantifier": "all valid messages and all cut points", "why_tests_cant": "cut points times messages is unbounded", "anchors": ["lens/astsrv.go:decodeMessagePoint", "lens/astsrv.go:decodeMessagePointState", "lens/astsrv.go:decodeMessagePointPanic", "lens/astsrv.go:decodeMessageError"]}
{"id": "C11", "title": "Malformed messages cannot make the server reserve unbounded memory", "statement": "For any received bytes, every list the decoder reserves room for before reading its elements has a length bounded by a configured or constant limit.", "quantifier": "all byte strings", "why_tests_cant": "attack inputs are adversarial byte strings, not samples", "anchors": ["lens/astsrv.go:readValue", "lens/astsrv.go:readStackFrames", "lens/astsrv.go:readFields", "lens/astsrv.go:readString"]}
{"id": "C12", "title": "Oversized numbers are rejected", "statement": "A variable-length number whose value does not fit in 64 bits, or that is longer than ten bytes, is rejected rather than silently truncated; a point id that does not fit in 32 bits is rejected rather than attributed to another point.", "quantifier": "all byte strings", "why_tests_cant": "overflow only shows for particular ten-byte sequences", "anchors": ["lens/astsrv.go:readVarint", "lens/astsrv.go:decodeMessagePoint"]}
{"id": "C13", "title": "Capturing state terminates and is bounded", "statement": "Capturing a program value always terminates, never nests deeper than the configured recursion limit, never lists more elements of a collection than the length limit, and never sends a string longer than the limit plus the truncation note.", "quantifier": "all heaps including cyclic and shared ones, all depth and length limits", "why_tests_cant": "cyclic heaps are unbounded; a hang shows only for particular pointer shapes", "anchors": ["lens/astclient.go:streamField", "lens/astclient.go:limitLensMonitorStringSize"]}
{"id": "C14", "title": "Cycle markers mean cycles", "statement": "A value is replaced by a cycle marker only if the value really contains itself, and the marker names an enclosing value at the same address; unshared acyclic values are captured in full.", "quantifier": "all heaps", "why_tests_cant": "sharing patterns are unbounded", "anchors": ["lens/astclient.go:streamField"]}
{"id": "C15", "title": "Truncating a long string keeps its beginning and says how much was dropped", "statement": "Strings within the limit are sent unchanged; longer ones are sent as exactly their first limit bytes followed by a note with the exact number of bytes dropped, so two strings with equal captured text have equal length and equal first limit bytes.", "quantifier": "all strings and limits", "why_tests_cant": "unbounded strings", "anchors": ["lens/astclient.go:limitLensMonitorStringSize"]}
{"id": "C16", "title": "Truncated maps pick the same entries on every run", "statement": "When a map has more entries than the limit, which entries are sent depends only on the map's contents and not on Go's random iteration order.", "quantifier": "all maps with comparable keys, all iteration orders", "why_tests_cant": "iteration order is random; keys include nested structs, arrays, interfaces, floats", "anchors": ["lens/astclient.go:lensCompareReflectValue", "lens/astclient.go:streamField"]}
{"id": "C17", "title": "Message handling is all-or-nothing", "statement": "For every HTTP request to a monitoring endpoint: a non-POST request gets 405 and no effect; a body that does not decode gets 400 and no effect; otherwise the registered handler is invoked exactly once with the decoded message and the reply is 200.", "quantifier": "all requests", "why_tests_cant": "arbitrary methods and bodies", "anchors": ["lens/astsrv.go:handlePoint", "lens/astsrv.go:handlePointState", "lens/astsrv.go:handlePointPanic", "lens/astsrv.go:handleEventError"]}
{"id": "C18", "title": "Saved test results load back unchanged", "statement": "Serialising a TestResult and deserialising it yields the same result: same test, callers, frames in order, field trees, stacks, times, panics, counters and extension frames (nil and empty collections identified).", "quantifier": "all test results with any repetition and nesting of field trees and stacks", "why_tests_cant": "the encoder deduplicates by content key; correctness depends on which subtrees repeat and on keys distinguishing all of them", "anchors": ["lens/types.go:TestResult.MarshalMsgpack", "lens/types.go:TestResult.UnmarshalMsgpack"]}
{"id": "C19", "title": "Field identity keys distinguish different contents", "statement": "Barring collisions of the hash function itself, two field trees have the same ID exactly when they have the same names, values and nesting; the ID does not depend on map iteration order.", "quantifier": "all pairs of field trees", "why_tests_cant": "counterexamples are pairs of differently nested trees", "anchors": ["lens/types.go:FieldValues.ID", "lens/types.go:FieldValue.ID", "lens/util.go:bytesKey"]}
{"id": "C20", "title": "Flattened field paths are faithful", "statement": "Flattening a field tree yields exactly one entry per leaf with that leaf's value, independent of map iteration order, so that comparing flattened trees compares all leaves.", "quantifier": "all field trees", "why_tests_cant": "depends on the characters in names", "anchors": ["lens/types.go:FieldValues.FlattenFieldValues"]}
{"id": "C21", "title": "Serialised results never contain dangling references", "statement": "Every dictionary index in the output of the encoder is in range and references are acyclic, so decoding data produced by the encoder always terminates and never fails; decoding data with an out-of-range index fails instead of inventing a value.", "quantifier": "all test results; all encoded structures", "why_tests_cant": "references depend on repetition structure", "anchors": ["lens/types.go:TestResult.MarshalMsgpack", "lens/types.go:TestResult.UnmarshalMsgpack"]}
{"id": "C22", "title": "Instrumentation point ids are unique", "statement": "Under any interleaving of concurrent injections, every id handed out is distinct and non-zero, ids are handed out in increasing order of the atomic updates without gaps, and exhaustion of 32 bits yields an error instead of reuse.", "quantifier": "all schedules of any number of goroutines and any number of injections", "why_tests_cant": "lost-update races depend on schedule; wrap-around needs 2^32 injections", "anchors": ["lens/asttweak.go:nextPointId", "lens/asttweak.go:MaxPointId"]}
{"id": "C23", "title": "Captured frames are complete, ordered and waited for", "statement": "For any arrival order and any scheduling of the background work, the recorded result of a test contains, for every caller, exactly one frame per captured message in arrival order per caller, and building the result waits for all outstanding messages and returns.", "quantifier": "all message sequences and all schedules", "why_tests_cant": "races between HTTP handlers, background goroutines and result building", "anchors": ["lens/astexec.go:HandleFuncPointState", "lens/astexec.go:makeTestResult", "lens/util.go:stripedMutex"]}
{"id": "C24", "title": "The stable baseline contains only what both baseline runs agree on", "statement": "The combined baseline of two runs contains a field value for a call only if the matching calls (same stack, same occurrence) of both runs have that value at that path, keeps every such agreeing value, and combining a run with itself loses nothing.", "quantifier": "all pairs of test results", "why_tests_cant": "results are unbounded nested structures", "anchors": ["lens/astexec.go:testResultStableFields", "lens/astexec.go:stableFieldValues"]}
{"id": "C25", "title": "Baseline panics and failures combine conservatively", "statement": "A panic message is in the combined baseline exactly as often as it occurs in both runs (the smaller count), and the baseline counts as failed if either run failed.", "quantifier": "all pairs of test results", "why_tests_cant": "multiset claim over unbounded lists", "anchors": ["lens/astexec.go:testResultStableFields"]}
{"id": "C26", "title": "Call-path keys identify call paths", "statement": "Two call stacks get the same matching key exactly when they list the same files and functions in the same order; line numbers never matter.", "quantifier": "all pairs of stacks", "why_tests_cant": "depends on characters in names", "anchors": ["lens/astexec.go:StackFramesKey"]}
{"id": "C27", "title": "Only project code is used to match call paths", "statement": "A frame is kept for matching exactly when its file lies inside the project directory and not in its top-level vendor directory, and paths inside the project are reported relative to it, so two checkouts at different places give the same keys.", "quantifier": "all file paths and project directories", "why_tests_cant": "path shapes are unbounded", "anchors": ["lens/astexec.go:trimStackFile", "lens/astexec.go:ProjectFrames"]}
{"id": "C28", "title": "Comparing a result with itself finds nothing", "statement": "If every test result after the update equals the one before, the report has zero changed fields, zero changed panics, no regression and no time change.", "quantifier": "all sets of test results, all time multipliers", "why_tests_cant": "self-comparison must hold for every shape, including repeated stacks and extreme times", "anchors": ["lens/engine.go:CompareTestResults"]}
{"id": "C29", "title": "Change counts add up", "statement": "For every test, same fields plus changed fields equals the number of baseline leaf fields plus the number of panic differences, overall totals equal the sums over tests, and a test has zero changes exactly when every baseline frame is matched, all its baseline fields are equal and the panics agree.", "quantifier": "all pairs of result sets", "why_tests_cant": "unbounded nested results", "anchors": ["lens/engine.go:CompareTestResults"]}
{"id": "C30", "title": "Panic differences are symmetric and order independent", "statement": "The number of panic differences between two runs is the size of the multiset symmetric difference, hence symmetric in the two runs and independent of recording order; it is zero exactly when the panics agree as multisets.", "quantifier": "all pairs of panic maps", "why_tests_cant": "multiset claim", "anchors": ["lens/engine.go:CompareTestResults"]}
{"id": "C31", "title": "Pass regressions are exactly pass-to-fail", "statement": "A test is reported as regressed exactly when it passed before and failed after, and every test present both before and after appears in the report exactly once under its own name.", "quantifier": "all pairs of result sets", "why_tests_cant": "unbounded sets of tests", "anchors": ["lens/engine.go:CompareTestResults", "lens/report.go:PrepareReportData"]}
{"id": "C32", "title": "A slow-down is reported exactly when it exceeds the multiplier", "statement": "A time interval is reported as a regression exactly when the new interval is more than multiplier times the old one (taking the old as at least one millisecond), and the time change reported for a test is the most significant one.", "quantifier": "all 32-bit intervals and multipliers 1..100, any number of frames", "why_tests_cant": "needs extreme intervals and specific orders of changes", "anchors": ["lens/engine.go:CompareTestResults"]}
{"id": "C33", "title": "Value differences are reported exactly when values differ", "statement": "DiffValues returns nothing exactly when the two values are equal, and what it reports lists every changed line.", "quantifier": "all pairs of strings", "why_tests_cant": "unbounded strings", "anchors": ["lens/engine.go:DiffValues"]}
{"id": "C34", "title": "go.mod comparison finds exactly the changed versions", "statement": "Diffing two go.mod files reports a module exactly when it is required in both with different versions, with its old and new version, once per requirement of the new file.", "quantifier": "all pairs of requirement lists", "why_tests_cant": "unbounded files", "anchors": ["lens/module.go:DiffModulesFromGoModFiles", "lens/module.go:DiffModulesFromGoWorkFiles"]}
{"id": "C35", "title": "The oldest Go version wins", "statement": "Folding go directives of several modules yields the oldest one regardless of order, a missing directive never wins over a present one, and a module is skipped as too old exactly when its Go version is older than the minimum supported.", "quantifier": "all version strings and all orders", "why_tests_cant": "version strings include prereleases such as 1.21rc1", "anchors": ["lens/module.go:olderGoVersion", "lens/asttweak.go:IsGoVersionBelowMinimum", "lens/astexec.go:FilterModulesByGoVersion"]}
{"id": "C36", "title": "Workspace dependency versions are the extreme ones", "statement": "When several workspace modules require a dependency at different versions, the version chosen is one of those required and no required version is newer (respectively older).", "quantifier": "all sets of requirement lists", "why_tests_cant": "needs all version comparisons", "anchors": ["lens/module.go:parseProjectDeps"]}
{"id": "C37", "title": "Version comparison is a total order on versions", "statement": "Comparing versions is reflexive, antisymmetric up to build metadata, transitive and total; prereleases sort before their release.", "quantifier": "all version strings", "why_tests_cant": "unbounded", "anchors": ["lens/module.go:compareGoVersions", "lens/module.go:parseProjectDeps"]}
{"id": "C38", "title": "Every requested module is analysed exactly once", "statement": "Module change analysis terminates on any (even cyclic) dependency graph, examines each module at most once, and reports the changed functions of every requested module.", "quantifier": "all dependency graphs and all request lists, including repeated names", "why_tests_cant": "termination and loss depend on graph shape and repeated entries", "anchors": ["lens/module.go:AnalyzeModuleChanges", "lens/module.go:analyzeModuleChangesInternal"]}
{"id": "C39", "title": "Changed-line marks are sound and complete", "statement": "For a changed function, the line marks have one entry per line of the original definition, mark every line that was removed or replaced, and (at radius zero) mark no line that is unchanged.", "quantifier": "all pairs of definitions and all radii", "why_tests_cant": "unbounded texts", "anchors": ["lens/module.go:computeChangeLineBitmap"]}
{"id": "C40", "title": "Skipping old modules loses nothing", "statement": "Filtering modules by Go version splits the changed functions: every function is either kept or counted as skipped, never both, and order is preserved.", "quantifier": "all lists of functions and modules", "why_tests_cant": "unbounded", "anchors": ["lens/astexec.go:FilterModulesByGoVersion"]}
{"id": "C41", "title": "Module cache paths are unambiguous", "statement": "Two different module versions never map to the same directory in the module cache, even on case-insensitive file systems.", "quantifier": "all pairs of module paths and versions", "why_tests_cant": "case folding over all strings", "anchors": ["lens/module.go:FindModulePathInCache"]}
{"id": "C42", "title": "Affected callers are exactly those that can reach a change", "statement": "The reported callers of a changed function are exactly the project functions from which the function is reachable by a call path not passing through another entry point, each reported once, and the search terminates on recursive call graphs.", "quantifier": "all call graphs, including cyclic ones", "why_tests_cant": "graphs are unbounded", "anchors": ["lens/static.go:reverseDFS", "lens/static.go:CallerStaticAnalysis"]}
{"id": "C43", "title": "Affected tests are exactly those that can reach a caller", "statement": "Test discovery returns exactly the tests from which an affected caller is reachable, with exactly the callers each reaches, independent of goroutine scheduling.", "quantifier": "all call graphs and all schedules", "why_tests_cant": "schedules and graphs are unbounded", "anchors": ["lens/static.go:TestStaticAnalysis"]}
{"id": "C44", "title": "Function identifiers are unique", "statement": "Two different functions (package, receiver type, name) never share an identifier.", "quantifier": "all triples of Go package path, receiver and name", "why_tests_cant": "depends on characters", "anchors": ["lens/static.go:makeFunctionIdentStr", "lens/types.go:ShortIdent"]}
{"id": "C45", "title": "Merging return points neither loses nor invents calls", "statement": "Merging return points by line yields each line once in ascending order with the sum of call counts of all entries for that line, although it works in place on a shared array.", "quantifier": "all lists of return points", "why_tests_cant": "in-place aliasing bugs depend on the pattern of duplicates", "anchors": ["lens/static.go:mergeReturnInfos"]}
{"id": "C46", "title": "Restoring brings back every source file", "statement": "After any sequence of instrumentation commits (any files, repeated, in any order), Restore leaves every project file with its original content and removes every file the tool created.", "quantifier": "all commit sequences, all initial file trees", "why_tests_cant": "leftover state depends on history, stale backups and links", "anchors": ["lens/asttweak.go:Restore", "lens/asttweak.go:commitFileInternal", "lens/asttweak.go:backupOrigFile", "lens/asttweak.go:InjectASTClient"]}
{"id": "C47", "title": "A crash never loses the original source", "statement": "At every crash point of commit and restore, for every instrumented file the original content is still on disk, either in the file itself or in its backup.", "quantifier": "all crash points of all commit/restore sequences", "why_tests_cant": "crash points cannot be enumerated by tests", "anchors": ["lens/asttweak.go:backupOrigFile", "lens/file.go:CopyFile", "lens/file.go:replaceFile"]}
{"id": "C48", "title": "go.mod and go.sum are restored after the update run", "statement": "Whatever step of the update analysis fails, when it returns go.mod and go.sum of every project module are as before and no backup is left behind.", "quantifier": "all failure points, all sets of modules", "why_tests_cant": "failure points times modules", "anchors": ["lens/astexec.go:RunModuleUpdateAnalysis"]}
{"id": "C49", "title": "Return instrumentation does not change behaviour", "statement": "A function instrumented at its returns computes the same results with the same side effects in the same order as the original, and every return statement of the function reports its state.", "quantifier": "all function bodies and all executions", "why_tests_cant": "programs and executions are unbounded", "anchors": ["lens/asttweak.go:InjectFuncPointReturnStates", "lens/asttweak.go:buildReturnInstrumentation"]}
{"id": "C50", "title": "Call instrumentation does not change behaviour", "statement": "Instrumenting calls to a function keeps the evaluation of the call's arguments exactly as in the original: same number of evaluations, same order, under the same conditions.", "quantifier": "all function bodies and all executions", "why_tests_cant": "programs and executions are unbounded", "anchors": ["lens/asttweak.go:InjectFuncPointBeforeCall"]}
{"id": "C51", "title": "Inserting comment lines preserves the source", "statement": "Inserting lines into a function body keeps every original line unchanged and in order, inserts only directly before lines of that function's body, and removing the inserted lines gives back the original file.", "quantifier": "all source texts, all callbacks", "why_tests_cant": "unbounded texts", "anchors": ["lens/asttweak.go:InsertFuncLines"]}
{"id": "C52", "title": "Files being instrumented concurrently never overlap", "statement": "When functions are grouped for concurrent instrumentation, all functions of one file are handled by one worker and every function is handled exactly once.", "quantifier": "all lists of functions and all schedules", "why_tests_cant": "grouping over unbounded lists", "anchors": ["lens/astexec.go:injectMonitorPoints"]}
{"id": "C53", "title": "The concurrency limiter limits and joins", "statement": "At most limit activities hold the limiter at any moment, and Join returns only when every activity that took it has released it; with balanced use nothing deadlocks.", "quantifier": "all schedules of any number of goroutines", "why_tests_cant": "schedules", "anchors": ["lens/util.go:limitingWaitGroup"]}
{"id": "C54", "title": "Striped locks exclude per key", "statement": "Two goroutines that hold the lock for the same key never overlap, for every hash function and stripe count.", "quantifier": "all schedules, keys, stripe counts", "why_tests_cant": "schedules", "anchors": ["lens/util.go:stripedMutex"]}
{"id": "C55", "title": "The rolling output buffer is bounded and keeps the tail", "statement": "After any sequence of writes the buffer never exceeds its limit (for limits of at least six bytes) and holds either the whole output or an ellipsis followed by an exact suffix of the output.", "quantifier": "all write sequences and limits", "why_tests_cant": "unbounded histories", "anchors": ["lens/util_io.go:limitedRollingBuffer"]}
{"id": "C56", "title": "The tee delivers to every writer", "statement": "Every write to a tee reaches every non-nil writer exactly once and in order even if an earlier writer fails, failures are reported, and closing closes every closable writer.", "quantifier": "all lists of writers and all failure patterns", "why_tests_cant": "lists and failures are unbounded", "anchors": ["lens/util_io.go:TeeWriter", "lens/util_io.go:teeWriter"]}
{"id": "C57", "title": "Child processes get a safe environment", "statement": "The environment passed to child processes contains no inherited LD_ variable, every requested variable with its requested value taking effect, and every other inherited variable unchanged.", "quantifier": "all environments", "why_tests_cant": "unbounded", "anchors": ["lens/exec.go:mergeSafeEnv"]}
{"id": "C58", "title": "The directory containment check is exact", "statement": "A file is reported as within a directory exactly when its cleaned absolute path is the directory or lies below it.", "quantifier": "all pairs of paths", "why_tests_cant": "unbounded paths with dots and double dots", "anchors": ["lens/file.go:fileWithinDir"]}
{"id": "C59", "title": "Limiting lines keeps exactly the requested lines", "statement": "Limiting a text to n lines returns the text unchanged if it has at most n lines, and otherwise exactly its first (or last) n lines.", "quantifier": "all texts and counts", "why_tests_cant": "unbounded", "anchors": ["lens/util.go:limitStringLines"]}
{"id": "C60", "title": "A prepared configuration is valid, and preparation happens once", "statement": "Prepare succeeds only if every option is in its documented range and both output files can be written, a second Prepare fails, and a failed Prepare leaves the configuration as it was so it can be corrected and retried.", "quantifier": "all configurations and all retry histories", "why_tests_cant": "the option space is unbounded", "anchors": ["lens/engine.go:Config.Prepare"]}
{"id": "C61", "title": "Module arguments are parsed exactly", "statement": "A module@version argument is accepted exactly when it has one non-empty name and one non-empty version, and is split into exactly these; a comma separated list yields exactly its entries in order.", "quantifier": "all strings", "why_tests_cant": "unbounded", "anchors": ["lens/engine.go:parseTargetModule", "lens/engine.go:Prepare"]}
{"id": "C62", "title": "Every run ends in a report or an error, with cleanup", "statement": "Whatever providers do, a run either returns an error or writes the report exactly once; each analysis that was set up is cleaned up exactly once, in reverse order, and storage that was opened is closed.", "quantifier": "all outcomes of all providers", "why_tests_cant": "2^n failure combinations with ordering", "anchors": ["lens/engine.go:AnalysisEngine.Run"]}
{"id": "C63", "title": "Report lists are sorted and free of duplicates", "statement": "Lists in the JSON report are sorted, contain each entry once and exactly the entries of the analysis.", "quantifier": "all analysis results", "why_tests_cant": "unbounded", "anchors": ["lens/report.go:PrepareReportData"]}
{"id": "C64", "title": "Charts from the JSON report equal charts from the run", "statement": "Rendering charts from the saved JSON report shows the same tests, regressions and field change counts as rendering directly after the run.", "quantifier": "all runs", "why_tests_cant": "unbounded results", "anchors": ["lens/report.go:RenderReportChartsFromJson", "lens/report.go:BuildReportMap", "lens/report.go:renderChartsToPainter"]}
{"id": "C65", "title": "The riskiest tests are shown first", "statement": "The table of risky tests is ordered by risk and, when truncated, no omitted test is riskier than a shown one.", "quantifier": "all sets of tests", "why_tests_cant": "ordering over unbounded lists", "anchors": ["lens/report.go:renderChartsToPainter"]}
{"id": "C66", "title": "A difference is never rounded away", "statement": "The displayed share of unchanged fields is 100% only if there are no differences.", "quantifier": "all counts", "why_tests_cant": "rounding at extreme counts", "anchors": ["lens/report.go:renderChartsToPainter"]}
{"id": "C67", "title": "Mutation runs always put the source file back", "statement": "Whatever happens while testing a mutant, when the mutation script ends the mutated file has its original content, and the verdict passed to the mutation tool is killed exactly when the tests failed.", "quantifier": "all outcomes of every step", "why_tests_cant": "failure combinations", "anchors": ["lens/mutation.go:buildExecSelectTestsScript", "lens/mutation.go:buildExecAllTestsScript", "lens/mutation.go:scriptFinishCheck"]}
{"id": "C68", "title": "Line-scoped mutation only touches changed lines", "statement": "With line scope, mutators stay enabled on exactly the marked lines of selected functions and are disabled on every other line of them; only functions with a marked line and reached by tests are selected.", "quantifier": "all functions and marks", "why_tests_cant": "unbounded", "anchors": ["lens/mutation.go:RunMutationTesting", "lens/asttweak.go:InsertFuncLines"]}
{"id": "C69", "title": "The temporary copy is complete and disposable", "statement": "After switching to a temporary copy, every path the run uses lies inside the copy and names the copy of what it named before, and whether or not copying fails no temporary directory is left behind after cleanup.", "quantifier": "all layouts of project, GOPATH and module cache; all failure points", "why_tests_cant": "layout combinations", "anchors": ["lens/engine.go:setupTempEnvironment"]}
{"id": "C70", "title": "The reported number of points is the highest point id", "statement": "MaxPointId returns the highest point id handed out so far, under any interleaving of injections.", "quantifier": "all schedules of any number of goroutines", "why_tests_cant": "depends on schedule; only logged", "anchors": ["lens/asttweak.go:MaxPointId", "lens/asttweak.go:nextPointId"]}
{"id": "C71", "title": "Recording keeps exactly the fields the baseline frame has", "statement": "While the run after the update is recorded, a frame keeps a top-level field, with everything below it, exactly when the baseline frame of the same call path and the same occurrence has a field of that name; without such a baseline frame it keeps no field.", "quantifier": "all baselines, recorded frames and new frames", "why_tests_cant": "frames and call histories are unbounded", "anchors": ["lens/astexec.go:HandleFuncPointState"]}
{"id": "C72", "title": "Listed field changes are exactly the changed fields", "statement": "A field is listed as changed for a caller exactly when its value differs between some call before and the matching call after the update, and the text shown is the difference of two such values.", "quantifier": "all pairs of results, any number of callers, calls and fields", "why_tests_cant": "unbounded results with repeated calls", "anchors": ["lens/engine.go:CompareTestResults"]}
{"id": "C73", "title": "Exported call edges are the call graph's", "statement": "The call edges handed to analysis hooks list for each declared function exactly the identifiers of the functions it calls, each once, and list nothing for other functions.", "quantifier": "all call graphs", "why_tests_cant": "graphs are unbounded; functions sharing an identifier overwrite one another depending on map order", "anchors": ["lens/static.go:extractCallGraphEdges"]}
{"id": "C74", "title": "Every reachable package is created exactly once", "statement": "Building the program creates each typed package reachable through imports exactly once, reports as module packages exactly those outside the project, and terminates for any import graph.", "quantifier": "all import graphs", "why_tests_cant": "import graphs are unbounded", "anchors": ["lens/static.go:LoadProjectCallGraph"]}
{"id": "C75", "title": "Test functions are those go test runs", "statement": "A function counts as a test exactly if go test would run it as one.", "quantifier": "all function declarations", "why_tests_cant": "names, receivers and signatures are unbounded", "anchors": ["lens/static.go:isGoTestFunction"]}
{"id": "C76", "title": "Originals survive a crash followed by another run", "statement": "If a run is killed at any point, the original content of every instrumented source and of every go.mod and go.sum is still on disk, and a later run of the tool does not destroy it.", "quantifier": "all crash points of the instrumentation and of the update run, all later runs", "why_tests_cant": "needs kill at every point and a second run from each such state", "anchors": ["lens/asttweak.go:backupOrigFile", "lens/astexec.go:RunModuleUpdateAnalysis", "lens/file.go:CopyFile"]}
{"id": "C77", "title": "A successful commit has written every pending file", "statement": "If Commit reports success, every file with pending edits has exactly its new content on disk, nothing is pending any more, and no file other than these and their backups was changed.", "quantifier": "all sets of pending files, all failing writes", "why_tests_cant": "needs all combinations of failures and files", "anchors": ["lens/asttweak.go:Commit", "lens/asttweak.go:loadParsedFileNode"]}
{"id": "C78", "title": "Inserted lines stand between tokens", "statement": "A line inserted into a function body stands between tokens, never inside a string literal or comment, so the program is unchanged.", "quantifier": "all token layouts of all files", "why_tests_cant": "layouts of tokens over lines are unbounded", "anchors": ["lens/asttweak.go:InsertFuncLines"]}
{"id": "C79", "title": "The mutation score counts killed mutants", "statement": "The number of squashed mutations in the result is the number of tested mutants for which the tests failed, and the total is the number of mutants tested or skipped.", "quantifier": "all sequences of mutants and test outcomes", "why_tests_cant": "sequences of outcomes are unbounded; existing tests never run the mutation tool", "anchors": ["lens/mutation.go:RunMutationTesting", "lens/mutation.go:scriptFinishCheck"]}
{"id": "C80", "title": "Sources are as found after mutation testing", "statement": "When mutation testing returns, with or without an error, every source has the content it had before and no backup is left.", "quantifier": "all schedules of the workers, all errors", "why_tests_cant": "needs all interleavings of workers with the cleanup", "anchors": ["lens/mutation.go:RunMutationTesting", "lens/asttweak.go:Restore", "lens/asttweak.go:InsertFuncLines"]}
{"id": "C81", "title": "The report states what was found", "statement": "The counts handed to the report writer are the ones the analyses returned: a count is zero only if it was found to be zero or the run ended before it could be determined.", "quantifier": "all outcomes of all providers", "why_tests_cant": "early exits multiply with provider outcomes", "anchors": ["lens/engine.go:AnalysisEngine.Run"]}
{"id": "C82", "title": "The title names the updated module", "statement": "The report and the charts name the only changed module, or else the only module required directly, and no module if there are several.", "quantifier": "all lists of module changes", "why_tests_cant": "unbounded lists", "anchors": ["lens/report.go:rootModule"]}
{"id": "C83", "title": "Full coverage is shown only for full coverage", "statement": "The charts show 100% of changed functions as reachable or covered only if all of them are.", "quantifier": "all counts", "why_tests_cant": "rounding at extreme counts", "anchors": ["lens/report.go:renderChartsToPainter"]}
{"id": "C84", "title": "The performance label states the change", "statement": "The performance chart says by how many percent the measured calls became faster or slower, whatever unit is used to draw the times.", "quantifier": "all times", "why_tests_cant": "unbounded", "anchors": ["lens/report.go:renderChartsToPainter"]}
{"id": "C85", "title": "The table accounts for all changed fields", "statement": "The row of a risky test names changed fields, states how many further ones there are, and is the same each time the report is drawn.", "quantifier": "all field changes and iteration orders", "why_tests_cant": "map iteration order", "anchors": ["lens/report.go:renderChartsToPainter"]}
{"id": "C86", "title": "Values that contain themselves are not unrolled", "statement": "While a pointer, map or slice is being captured, the same address met again inside it is replaced by a marker and not captured again.", "quantifier": "all heaps, all paths through a value", "why_tests_cant": "cycles can go through any mixture of pointers, interfaces, maps and slices", "anchors": ["lens/astclient.go:streamField"]}
{"id": "C87", "title": "A report before a call shows what is passed", "statement": "Every report added for a selected call is sent immediately before that call is made, and carries exactly the receiver and the arguments the call then gets.", "quantifier": "all function bodies, all selections of calls, all executions", "why_tests_cant": "programs and executions are unbounded; the order of evaluation matters only in rare combinations", "anchors": ["lens/asttweak.go:InjectFuncPointBeforeCall", "lens/asttweak.go:buildCallInstrumentationWithArgs"]}
{"id": "C88", "title": "Every execution of a selected call is reported", "statement": "Whenever the instrumented function makes a selected call, a report for it has been sent before; there are as many reports as selected calls.", "quantifier": "all function bodies, all selections of calls, all executions", "why_tests_cant": "calls can stand at any place of any statement", "anchors": ["lens/asttweak.go:InjectFuncPointBeforeCall"]}
{"id": "C89", "title": "Instrumenting calls again adds nothing", "statement": "Applying the call instrumentation to a function that has already been instrumented for the same calls leaves it unchanged and uses no further point number.", "quantifier": "all function bodies, all selections of calls", "why_tests_cant": "programs are unbounded", "anchors": ["lens/asttweak.go:InjectFuncPointBeforeCall", "lens/asttweak.go:isPrevStmtSendLensPoint"]}
{"id": "C90", "title": "Each instrumented call has its own point number", "statement": "The reports added to a function carry consecutive point numbers beginning with the first free one, each exactly once.", "quantifier": "all function bodies, all selections of calls", "why_tests_cant": "programs are unbounded", "anchors": ["lens/asttweak.go:InjectFuncPointBeforeCall", "lens/asttweak.go:nextPointId"]}
{"id": "C91", "title": "Watching functions for panics does not change behaviour", "statement": "With entry, panic and finish points in any of its functions a program does what it does without them: the same effects in the same order, every function entered and left at the same times in the same way, and the same end, for every combination of panics, recoveries, deferred calls and Goexit.", "quantifier": "all terminating executions of all single-goroutine programs, all sets of points", "why_tests_cant": "nesting of panics, recoveries and deferred calls is unbounded", "anchors": ["lens/asttweak.go:InjectFuncPointPanic", "lens/asttweak.go:InjectFuncPointEntry", "lens/asttweak.go:InjectFuncPointFinish"]}
{"id": "C92", "title": "Panic reports are exactly the panics that leave the function", "statement": "A panic point sends one message with the panic's value each time a panic leaves its function, after everything the function has deferred; it sends nothing when the function returns, when the panic is stopped inside it, or on Goexit.", "quantifier": "all executions, all sets of points", "why_tests_cant": "nesting of panics, recoveries and deferred calls is unbounded", "anchors": ["lens/asttweak.go:InjectFuncPointPanic"]}
{"id": "C93", "title": "Entry and finish reports are exactly the executions of the function", "statement": "An entry point sends exactly one message for each execution of its function, before anything else in it; a finish point sends exactly one each time its function is left, in whatever way.", "quantifier": "all executions, all sets of points", "why_tests_cant": "executions are unbounded", "anchors": ["lens/asttweak.go:InjectFuncPointEntry", "lens/asttweak.go:InjectFuncPointFinish"]}
{"id": "C94", "title": "Functions marked as always panicking never return", "statement": "A function that is marked as ending in a panic (and therefore gets no return-state and panic points) never returns to its caller.", "quantifier": "all function bodies the compiler accepts and all their executions", "why_tests_cant": "unbounded nesting of loops, switches and labels and arbitrary outcomes of conditions and calls", "anchors": ["lens/static.go:AnalyzeASTFunctionReturnPoints", "lens/astexec.go:injectMonitorPoints"]}
{"id": "C95", "title": "Every function asked for is watched, and no other", "statement": "When the points have been put in, every function asked for that has a body has a point for each return and one for panics (callers) or one for its entry and one for panics (changed functions); no other function has a point, and functions that only panic have no point for panics or return states.", "quantifier": "all files, function lists and interleavings of the workers", "why_tests_cant": "depends on declarations of the same name, on functions without a body, and on how workers take turns", "anchors": ["lens/astexec.go:injectMonitorPoints", "lens/asttweak.go:findFuncDecl", "lens/asttweak.go:injectPoint"]}
{"id": "C96", "title": "The maps from point to function are exact", "statement": "When all points have been put in, the maps returned assign to every point in the source files the function it is in, contain nothing else, and share no id.", "quantifier": "all files, function lists and interleavings of the workers", "why_tests_cant": "workers run concurrently and merge their maps in any order", "anchors": ["lens/astexec.go:injectMonitorPoints"]}
{"id": "C97", "title": "Changed functions are exactly those whose definition changed", "statement": "The functions reported as changed are exactly those functions of the old version that exist in the new version with another definition, each once.", "quantifier": "all pairs of module versions", "why_tests_cant": "unbounded packages and files, declarations of the same name, printing errors", "anchors": ["lens/module.go:extractFunctions", "lens/module.go:aggregateFunctions", "lens/module.go:analyzeModuleChangesInternal"]}
{"id": "C98", "title": "Workspace files are expanded to exactly the directories they use", "statement": "The directories returned for a go.work file, taken from the workspace root, are exactly those its entries name: the directory itself, the matching directories of a glob, and every directory with a go.mod below the prefix of a \"...\" entry; each is listed once.", "quantifier": "all workspace roots, entries (relative, absolute, with globs and \"...\") and directory trees", "why_tests_cant": "unbounded trees and paths; cleaning and rebasing of paths with \"..\" must agree for all of them", "anchors": ["lens/module.go:parseGoWork", "lens/module.go:resolveGoModPath"]}
{"id": "C99", "title": "Comparing workspaces finds the changes of every module in both", "statement": "Comparing the project's go.work with an updated go.work elsewhere reports exactly the version changes between the go.mod files at the same place in both trees, for every directory either file uses.", "quantifier": "all pairs of workspaces, places and entries", "why_tests_cant": "depends on how entries are written; a wrong base directory compares a file with itself and reports nothing", "anchors": ["lens/module.go:DiffModulesFromGoWorkFiles", "lens/module.go:parseGoWork"]}
{"id": "C100", "title": "Package patterns cover exactly the modules of the project", "statement": "The go.mod files of a project are the one at its root and those of its workspace that exist, each once and in order; there is one package pattern for each, and it stands for exactly the directory of that module.", "quantifier": "all projects, workspaces and positions of modules inside and outside the project directory", "why_tests_cant": "all positions of a module relative to the project, names with dots, any number of modules", "anchors": ["lens/module.go:ProjectGoModFiles", "lens/module.go:ProjectPackagePatterns"]}
{"id": "C101", "title": "The prior version of a target module is the one the project uses", "statement": "For modules given on the command line, the analysis starts with exactly those required by a go.mod file of the project, in the order given, each with the version the project is built with (the highest required version) as prior version.", "quantifier": "all projects, workspaces and module arguments", "why_tests_cant": "any number of go.mod files requiring different versions", "anchors": ["lens/module.go:FindModuleVersion", "lens/module.go:FindModuleVersionInGoMod", "lens/engine.go:parseInitialModules"]}
{"id": "C102", "title": "Recorded field values are exactly those of the message", "statement": "Of a decoded state message, every field that is not part of the inside of a reflect.Value is recorded under its path with the text of its value (or the hash of a long text), and nothing else is recorded.", "quantifier": "all messages: trees of any depth and width, all value kinds and types", "why_tests_cant": "unbounded trees; the filter depends on names, types and parent types in combination", "anchors": ["lens/astexec.go:collectFields", "lens/astexec.go:shouldCaptureField", "lens/astexec.go:HandleFuncPointState"]}
{"id": "C103", "title": "The order of map entries does not change what is recorded", "statement": "Messages that contain the same fields in different orders, at any level, are recorded alike (Go visits maps in random order).", "quantifier": "all messages and all reorderings at all levels", "why_tests_cant": "all permutations of all trees", "anchors": ["lens/astexec.go:collectFields", "lens/astclient.go:streamField"]}
{"id": "C104", "title": "Different states are recorded differently", "statement": "If two state messages are recorded alike, then they have the same fields with the same values.", "quantifier": "all pairs of messages", "why_tests_cant": "needs injectivity of the texts of all value kinds", "anchors": ["lens/astexec.go:collectFields", "lens/astclient.go:streamField", "lens/astclient.go:streamValueSlice"]}
{"id": "C105", "title": "Messages are recorded for the run they come from", "statement": "When tests run concurrently on the monitor servers, the result stored for a test consists of exactly the messages its own processes sent, the first and the second run apart.", "quantifier": "all numbers of tests and servers, all messages and all schedules", "why_tests_cant": "depends on the interleaving of processes, servers and test functions", "anchors": ["lens/astexec.go:runMonitoredTestAnalysis", "lens/astexec.go:runMonitoredTest", "lens/astsrv.go:SetPointHandler", "lens/astsrv.go:handlePointState"]}
{"id": "C106", "title": "Totals do not depend on the schedule", "statement": "At the end every test has at most one stored result, an error is returned just if some test has none, the number of field checks is the sum over the tests with results, and the module functions reached are those reached by their first runs.", "quantifier": "all numbers of tests and servers, all messages, failures and schedules", "why_tests_cant": "depends on the interleaving of the test functions", "anchors": ["lens/astexec.go:runMonitoredTestAnalysis", "lens/astexec.go:runMonitoredTest"]}
{"id": "C107", "title": "Servers are shared out without conflict or deadlock", "statement": "A server is with at most one test at a time, giving it back never blocks, all servers are back at the end, and every schedule in which processes stop sending messages ends with all tests run.", "quantifier": "all numbers of tests, processors and servers, all schedules", "why_tests_cant": "deadlock and exclusion over all interleavings", "anchors": ["lens/astexec.go:runMonitoredTestAnalysis", "lens/astexec.go:RunModuleUpdateAnalysis"]}
{"id": "C108", "title": "Only names in scope are reported", "statement": "Every name passed to the report before a return or at the end of a function is in scope there and means a variable or a constant that fits its default type, so the rewritten function compiles.", "quantifier": "all functions, all layouts of their text, all sets of earlier returns already replaced", "why_tests_cant": "nesting of blocks, shadowing and layout are unbounded, and the tree changes while it is scanned", "anchors": ["lens/asttweak.go:visibleDeclsBefore", "lens/asttweak.go:InjectFuncPointReturnStates"]}
{"id": "C109", "title": "All names in scope are reported", "statement": "Every receiver, parameter, named result, local variable and constant in scope at a return, except the blank identifier, is reported there once, in the order of the declarations.", "quantifier": "all functions, all layouts of their text, all sets of earlier returns already replaced", "why_tests_cant": "nesting of blocks, shadowing and layout are unbounded, and the tree changes while it is scanned", "anchors": ["lens/asttweak.go:visibleDeclsBefore", "lens/asttweak.go:InjectFuncPointReturnStates"]}
{"id": "C110", "title": "Replaced returns compile", "statement": "The block that reports and replaces a return compiles whenever the return it replaces did.", "quantifier": "all type systems of the program that obey Go's assignability laws, all result types, all returned expressions, all visible names", "why_tests_cant": "the combinations of types, untyped constants, hidden names and expression forms are unbounded; the decision to write a type or not is taken from names alone", "anchors": ["lens/asttweak.go:buildReturnInstrumentation", "lens/asttweak.go:makeReturnTemp", "lens/asttweak.go:exprContainsTypeShadow"]}
{"id": "C111", "title": "Replaced returns return the same values", "statement": "A replaced return returns the same values with the same dynamic types as before, also where untyped constants or interfaces are converted, and every result that is a typed value is reported with the value returned.", "quantifier": "all type systems, result types, returned expressions and visible names for which the block compiles", "why_tests_cant": "a conversion through a temporary of the wrong type changes results silently for some type combinations only", "anchors": ["lens/asttweak.go:buildReturnInstrumentation", "lens/asttweak.go:makeReturnTemp"]}
{"id": "C112", "title": "Fields of a report have different names", "statement": "No two fields reported at one return have the same name.", "quantifier": "all visible names, named results and returned expressions", "why_tests_cant": "collisions depend on names the program happens to use", "anchors": ["lens/asttweak.go:buildReturnInstrumentation", "lens/asttweak.go:makeSnapshotLit"]}
{"id": "C113", "title": "The added return compiles", "statement": "The return added at the end of a function that has results but no return compiles, and returns named results with their content and zero values for the others.", "quantifier": "all result types, all names of results, all names in scope", "why_tests_cant": "the expression is chosen from the spelling of the type alone, and names can be redefined", "anchors": ["lens/asttweak.go:zeroValueForType", "lens/asttweak.go:newZeroValueExpr", "lens/asttweak.go:InjectFuncPointReturnStates"]}
{"id": "C114", "title": "Directory copies are complete", "statement": "When CopyDir returns without error, the destination holds the same directories, file contents and links as the source at every path and nothing else; at any earlier time it holds only parts of that.", "quantifier": "all source trees, all interleavings of the walk with the copying goroutines, all limits, all failures", "why_tests_cant": "schedules of goroutines are not enumerable by tests", "anchors": ["lens/file.go:CopyDir", "lens/file.go:CopyFile"]}
{"id": "C115", "title": "Failures of directory copies are reported, and nothing is written after the end", "statement": "CopyDir returns an error exactly if an operation failed, the error tells what failed, and when it returns no copy is running any more.", "quantifier": "all source trees, interleavings and failing operations", "why_tests_cant": "depends on which goroutine fails when", "anchors": ["lens/file.go:CopyDir"]}
{"id": "C116", "title": "Directory copies end", "statement": "CopyDir ends after a bounded number of steps however it is scheduled, and succeeds if no operation fails: directories exist before files are created in them.", "quantifier": "all source trees, interleavings, limits above zero", "why_tests_cant": "absence of deadlock and of ordering failures over all schedules", "anchors": ["lens/file.go:CopyDir"]}
{"id": "C117", "title": "The copy is separate from the original", "statement": "Every path in a copy leads to a place inside the copy, namely to the copy of the place the same path leads to in the original.", "quantifier": "all source trees with links, all paths", "why_tests_cant": "arrangements of links are unbounded", "anchors": ["lens/file.go:CopyDir", "lens/file.go:CopyFile", "lens/engine.go:setupTempEnvironment"]}
{"id": "C118", "title": "WriteChmod makes a directory tree removable", "statement": "When WriteChmod returns without error, every file and directory below the root can be written and every directory searched; no permission is removed and links are left alone; it returns only when no goroutine is running, and reports an error that happened if any did.", "quantifier": "all trees, permissions, interleavings and failing operations", "why_tests_cant": "schedules and failure points", "anchors": ["lens/file.go:WriteChmod", "lens/file.go:concurrentWalk"]}
{"id": "C119", "title": "Messages reach the server of the run", "statement": "Every message instrumented code sends reaches the monitoring server of the run it belongs to, at the handler for its kind, once and in order.", "quantifier": "all packages, all files and names, all orders in which variables get their values, all ports, all network behaviours", "why_tests_cant": "it depends on when during the start of a package the code runs, and on file names", "anchors": ["lens/astclient.go:init", "lens/astclient.go:postLensMonitorMessage", "lens/astsrv.go:astExecServerStart", "lens/astsrv.go:Port", "lens/astexec.go:RunMonitoredTests"]}
{"id": "C120", "title": "Failures to send are reported once and do not stop the program", "statement": "If a message cannot be delivered, this is reported once to the server and otherwise printed; there is no further attempt, and the instrumented program goes on.", "quantifier": "all programs, all network behaviours", "why_tests_cant": "networks may fail in every combination; a recursion between sending and reporting would show only if both fail", "anchors": ["lens/astclient.go:postLensMonitorMessage", "lens/astclient.go:sendLensError"]}
{"id": "C121", "title": "The injected client is the configured one", "statement": "The client written into a package belongs to that package, uses the configured port, recursion and length limits, and is otherwise the template.", "quantifier": "all templates, all configured names and values", "why_tests_cant": "values are put in by position in declarations of any shape", "anchors": ["lens/asttweak.go:rewriteAstClientTemplate", "lens/asttweak.go:updateConstLiterals"]}
{"id": "C122", "title": "A mutant is tested with exactly the tests that reach its file", "statement": "With targeted tests, the script for a mutant of a file runs exactly the tests that reach a changed function of this file, in the packages of the project, and skips the mutant only if there is no such test.", "quantifier": "all sets of tests, targets and changed functions, all file paths and package patterns", "why_tests_cant": "the selection is generated shell code read again by bash and by the regular expressions of go test", "anchors": ["lens/mutation.go:RunMutationTesting", "lens/mutation.go:buildExecSelectTestsScript"]}
{"id": "C123", "title": "The script for mutants is reproducible", "statement": "The script of targeted tests depends only on which test reaches which file, not on the order of tests and targets or the iteration order of the map.", "quantifier": "all lists of tests with the same relation of tests and files, all orders of the map", "why_tests_cant": "orders of map iteration are random", "anchors": ["lens/mutation.go:buildExecSelectTestsScript"]}
{"id": "C124", "title": "A monitored run runs only its test", "statement": "The command for the monitored run of a test runs this test and no other.", "quantifier": "all tests of a directory, all names", "why_tests_cant": "depends on every other test in the directory and on the pattern language", "anchors": ["lens/exec.go:ExecGoTest"]}
{"id": "C125", "title": "Line operations are a correct edit script", "statement": "The operations computed for two texts go through both from the first to the last line; lines taken as equal are equal; putting the equal lines and the new lines together gives the new text.", "quantifier": "all pairs of texts", "why_tests_cant": "unbounded texts; the search for matches is recursive", "anchors": ["lens/module.go:computeChangeLineBitmap", "lens/engine.go:DiffValues"]}
{"id": "C126", "title": "Unchanged lines are not listed as changed", "statement": "No line is on both sides of a block that is listed as changed.", "quantifier": "all pairs of texts", "why_tests_cant": "unbounded texts; fails only from 200 lines on", "anchors": ["lens/module.go:computeChangeLineBitmap", "lens/engine.go:DiffValues"]}
{"id": "C127", "title": "No argument of the command line is ignored", "statement": "If a configuration is returned, the command line is a list of settings of flags, and each field of the configuration is the last value given for its flag, or the default.", "quantifier": "all command lines, all custom flags", "why_tests_cant": "unbounded lists of arguments in several forms", "anchors": ["lens/cmd/flags.go:ParseFlags"]}
{"id": "C128", "title": "The module cache is that of the go command", "statement": "The module cache directory of the configuration is GOMODCACHE, or pkg/mod in the first directory of GOPATH.", "quantifier": "all environments", "why_tests_cant": "depends on the environment of the user", "anchors": ["lens/cmd/flags.go:setupEnvironment"]}
{"id": "C129", "title": "Every custom flag is in the configuration", "statement": "The configuration has exactly one text for every custom flag, that of the last value given or of its default, and no other entries.", "quantifier": "all lists of custom flags, all command lines", "why_tests_cant": "custom flags are given by programs using the package", "anchors": ["lens/cmd/flags.go:ParseFlags"]}
{"id": "C130", "title": "A configuration only for a complete request", "statement": "There is a configuration exactly if help is not asked for, a project is named, an update is named, not both a go.mod and a go.work are given, and the environment says where modules are.", "quantifier": "all command lines that are lists of settings, all environments", "why_tests_cant": "all combinations of settings, repeated ones too", "anchors": ["lens/cmd/flags.go:ParseFlags", "lens/cmd/flags.go:setupEnvironment"]}
{"id": "C131", "title": "A test is clean exactly if stable behaviour is kept", "statement": "A test is reported without differences exactly if every field value that both runs before the update show is shown after it, by the same function in the same call along the same project path, and the panics common to both runs before are the panics after.", "quantifier": "all runs of a test (all sequences of monitor messages), with and without extension points, through storage", "why_tests_cant": "composes message handling, stability, storage, filtering and comparison over unbounded runs; fails only for calls out of time order", "anchors": ["lens/astexec.go:runMonitoredTest", "lens/astexec.go:applyStableFilter", "lens/engine.go:CompareTestResults"]}
{"id": "C132", "title": "Listed field changes are real changes", "statement": "A field of a function is listed as changed exactly if in some call both runs before the update show the same value for it and the runs after show another; the text is the difference of two such values.", "quantifier": "all runs of a test, all functions and field paths, through storage", "why_tests_cant": "all interleavings of calls along several paths, unbounded", "anchors": ["lens/astexec.go:testResultStableFields", "lens/engine.go:CompareTestResults"]}
{"id": "C133", "title": "Repeating a baseline run reports nothing", "statement": "If the run after the update does the same as one of the two runs before it, no difference, no regression and no field change is reported.", "quantifier": "all runs of a test", "why_tests_cant": "flaky behaviour shows up in some executions only", "anchors": ["lens/astexec.go:runMonitoredTest", "lens/engine.go:CompareTestResults"]}
{"id": "C134", "title": "Every test that can reach a changed function is run", "statement": "A test of the project is run exactly if calls lead from it to a changed module function.", "quantifier": "all call graphs with and without tests, all changes, all orders of the workers", "why_tests_cant": "graphs and schedules are unbounded; the two analyses use different graphs", "anchors": ["lens/static.go:CallerStaticAnalysis", "lens/static.go:TestStaticAnalysis", "lens/engine.go:PerformCallerStaticAnalysis"]}
{"id": "C135", "title": "Changed functions are tracked exactly if the project can reach them", "statement": "A changed module function counts as reachable exactly if a project function leads to it.", "quantifier": "all call graphs, all changes, all orders of the workers", "why_tests_cant": "graphs and schedules are unbounded", "anchors": ["lens/static.go:CallerStaticAnalysis"]}
{"id": "C136", "title": "The package found for a directory is the one the go command builds", "statement": "detectPackageName returns p exactly if the directory's non-test files that fit the build all have package p, which is the package built from it.", "quantifier": "all directories and files", "why_tests_cant": "directories are unbounded in number and kinds of files", "anchors": ["lens/asttweak.go:detectPackageName", "lens/asttweak.go:parseDir", "lens/asttweak.go:makeFileFilter"]}
{"id": "C137", "title": "The type check for a file covers its package and never crashes", "statement": "For any file of a directory, buildTypesInfo gives up or checks the sources of the file's package including the file; it never dereferences nil.", "quantifier": "all directories and files in them", "why_tests_cant": "directories are unbounded; the crash needs particular mixes of packages", "anchors": ["lens/asttweak.go:buildTypesInfo", "lens/asttweak.go:parseDir"]}
{"id": "C138", "title": "An update is clean exactly if every test keeps its behaviour", "statement": "The number of differences reported for a whole update is zero exactly if every test that is run shows after the update the values and panics that both its runs before show, whatever order the tests finish in.", "quantifier": "all sets of tests, all runs of each, all orders of finishing, both storages and every split threshold", "why_tests_cant": "composes recording, encoding, prefixed storage, loading and comparison over unboundedly many tests and orders", "anchors": ["lens/astexec.go:RunModuleUpdateAnalysis", "lens/astexec.go:runMonitoredTestAnalysis", "lens/engine.go:CompareTestResults", "lens/storage.go:KeyPrefixStorage"]}
{"id": "C139", "title": "One report for each test of the update", "statement": "The report of an update has exactly one entry for each test run, in the order of identifiers, named after the test and the same as if the test were the only one; the totals are the sums of the entries.", "quantifier": "all sets of tests, all runs, all orders of finishing, all storages", "why_tests_cant": "entries of other tests or of earlier updates show only with particular stores and orders", "anchors": ["lens/engine.go:CompareTestResults", "lens/engine.go:SingletonStorageProvider", "lens/astexec.go:runMonitoredTestAnalysis"]}
{"id": "C140", "title": "Tests running at the same time do not disturb each other", "statement": "However the loads and saves of the tests of a phase are interleaved, a phase that ends without an error leaves the storage as the tests leave it one after the other; the result of a test that is done is stored whatever the others do; an error is returned exactly if a test failed; and the report of an update is the same for all interleavings.", "quantifier": "all sets of tests, all runs, all interleavings of their steps, all numbers of servers, both storages", "why_tests_cant": "the number of interleavings is unbounded and a test run sees one of them", "anchors": ["lens/astexec.go:runMonitoredTestAnalysis", "lens/storage.go:KeyPrefixStorage", "lens/engine.go:CompareTestResults"]}
{"id": "C141", "title": "The report says what the runs showed", "statement": "The report written at the end of an update has one entry per test, in the order of identifiers, which says: whether the test failed before, whether it passed before and fails after, how many changed functions its first run reached, and which fields of which functions differ between the runs before and after, with the difference; its count of differences is zero exactly if the test keeps its behaviour. The same holds for what is read back from the JSON file.", "quantifier": "all sets of tests, all runs, all interleavings, both storages, all report contents that are text", "why_tests_cant": "the claim relates arbitrary runs to the written file through monitoring, storage, comparison and writing; a test sees one run of it", "anchors": ["lens/engine.go:WriteReportFiles", "lens/report.go:BuildReportMap", "lens/engine.go:CompareTestResults", "lens/astexec.go:runMonitoredTestAnalysis"]}
{"id": "C142", "title": "The table of the charts shows the tests that need attention", "statement": "The table of the charts, drawn directly or from the JSON file, has rows only for tests that pass no more or changed their behaviour, each saying which; such tests are left out only when there are ten rows, and then none that passes no more for one that does; the table is empty exactly if all tests keep behaviour and verdict.", "quantifier": "all sets of tests, all runs, all interleavings, both storages, all sorting orders of equal rows", "why_tests_cant": "which tests are left out depends on the number and order of all tests of an update", "anchors": ["lens/report.go:RenderReportChartsFromJson", "lens/engine.go:WriteReportFiles", "lens/engine.go:CompareTestResults"]}
{"id": "C143", "title": "The report lists the changes of time of the runs", "statement": "The report lists a function called by a test, once, exactly if some time between two calls of it, compared between the same calls before and after the update, changed by more than the factor; what is listed is such a time, with its difference; and the largest slowdown after all speedups, or speedup after all slowdowns, is the one listed. The same holds for what is read back from the JSON file.", "quantifier": "all sets of tests, all runs, all times, all interleavings, both storages", "why_tests_cant": "which calls are compared depends on call paths and repetitions in up to four runs, and times vary in every run", "anchors": ["lens/engine.go:CompareTestResults", "lens/astexec.go:computeStableFrames", "lens/report.go:PrepareReportData", "lens/report.go:BuildReportMap"]}
{"id": "C144", "title": "The static analysis loads the directories of the workspace", "statement": "The patterns given to the loader of packages stand for the project directory, if it has a go.mod file, and for each directory the go.work file names, and for nothing else; these are the directories whose tests are run. There is an error if there are none.", "quantifier": "all directory trees, all go.work files, relative and absolute entries, entries outside the project", "why_tests_cant": "entries may be relative, absolute, above the project or expanded, and two functions turn the same entries into patterns in different ways", "anchors": ["lens/static.go:LoadProjectCallGraph", "lens/module.go:parseGoWork", "lens/module.go:ProjectPackagePatterns"]}
{"id": "C145", "title": "A clean report means that no test that can reach a changed function is affected", "statement": "Every test of the project from which calls lead to a changed function is in the report, with an entry that says what its runs did; every entry is about such a test; and a report without differences and regressions means that none of these tests changed its behaviour or fails now, also when it is read back from the JSON file.", "quantifier": "all call graphs, all sets of changed functions, all runs of the tests, all interleavings of searches and tests, both storages", "why_tests_cant": "the claim joins the search of callers and tests, up to four runs of each test, stored results, their comparison and the report; a loss in any of these gives a report that looks clean", "anchors": ["lens/engine.go:AnalysisEngine.Run", "lens/static.go:CallerStaticAnalysis", "lens/static.go:TestStaticAnalysis", "lens/engine.go:CompareTestResults", "lens/report.go:PrepareReportData"]}
{"id": "C146", "title": "The counts of changed functions are those of the functions", "statement": "The report lists the changed functions that code of the project can reach; the number reached in testing is that of those whose entry point a test has passed, the number untracked that of those in modules too old for entry points; reached and untracked functions are different reachable ones and reachable functions are changed ones, so that no share in the charts is negative.", "quantifier": "all call graphs, all changed functions, all Go versions of modules, all points put in and all runs", "why_tests_cant": "the counts come from four different maps filled at different stages", "anchors": ["lens/engine.go:AnalysisEngine.Run", "lens/astexec.go:RunModuleUpdateAnalysis", "lens/astexec.go:getModuleChangesReached", "lens/astexec.go:FilterModulesByGoVersion", "lens/report.go:PrepareReportData"]}
{"id": "C147", "title": "What is recorded of a call is what the program has", "statement": "A state message that the injected code sends reaches the monitor with its function, time and call stack; every text recorded under a path is the text of the value the program has there (or a note in place of a value met before); and if no address is met twice and names are distinct, exactly the values of the program are recorded, each under its path.", "quantifier": "all values and heaps, all names, all depth and length limits, all call stacks and points", "why_tests_cant": "the claim joins the walk over reflected values, the binary encoding, the decoding, the maps of points and the flattening of fields; values and heaps are unbounded", "anchors": ["lens/astclient.go:sendLensPointStateMessage", "lens/astsrv.go:handlePointState", "lens/astexec.go:HandleFuncPointState", "lens/astexec.go:collectFields"]}
{"id": "C148", "title": "A change of a value in the program is in the report", "statement": "The report lists a field of a function exactly if, in some call of it along some path, the program had the same text there in both runs before the update and has another one after it; in particular a number that became another number, and a text that became one with another length or another beginning, are listed; and if the program has what it had before, nothing is listed.", "quantifier": "all programs and heaps, all runs, all interleavings of tests, both storages", "why_tests_cant": "the claim spans everything from the memory of the tested program to the report; a loss at any stage is silent", "anchors": ["lens/astclient.go:sendLensPointStateMessage", "lens/astexec.go:HandleFuncPointState", "lens/engine.go:CompareTestResults", "lens/report.go:PrepareReportData"]}
{"id": "C149", "title": "The report on a test says what its program did in the runs", "statement": "From what the injected code of a tested program sends (states, panics leaving watched functions, entries of changed functions) and whether the test fails, the report has one entry for each test, in the order of identifiers. The entry says whether the test failed before and whether it fails only now, has no differences exactly if the values in the calls and the panics (with function and text) after the update are those common to both runs before, counts the distinct entry points passed in the first run, and lists exactly the fields that changed; the total of differences is zero exactly if this is so of every test.", "quantifier": "all programs, all orders of messages, all ids known or unknown to the monitor, all interleavings of tests, both storages", "why_tests_cant": "the claim spans the injected client, three message formats, the server, the monitor, the comparison, the storage and the report; a message lost or put in the wrong list at any stage is silent", "anchors": ["lens/astclient.go:sendLensPointRecoveryMessage", "lens/astclient.go:sendLensPointMessage", "lens/astexec.go:HandleFuncPoint", "lens/astexec.go:HandleFuncPointPanic", "lens/astexec.go:makeTestResult", "lens/report.go:PrepareReportData"]}
{"id": "C150", "title": "Return points of callers are right", "statement": "For a function in SSA form, the return points list each line once in ascending order, exactly the lines on which the function can return, with the number of calls whose results are returned there; and a function is marked as ending in a panic (and then not watched) only if it can never return.", "quantifier": "all functions in SSA form, all control flow graphs, all orders in which equal lines are sorted", "why_tests_cant": "control flow graphs and their executions are unbounded, and the marking decides silently that a function is not watched", "anchors": ["lens/static.go:analyzeSSAFunctionReturnPoints", "lens/static.go:mergeReturnInfos"]}
{"id": "C151", "title": "Colours and scales of the charts agree with the results", "statement": "In the table of the charts the verdict of a test is red exactly if it passes no more, orange if it failed before and green else, and its count is green exactly if its behaviour is kept; the colours of the gauges tell whether the share shown in the label is below a half or four fifths; the colour of the performance label does not depend on the unit of time; and an axis has at most ten marks.", "quantifier": "all outcomes of updates, all counts and times", "why_tests_cant": "numbers are unbounded and the thresholds of units, colours and rounding interact", "anchors": ["lens/report.go:renderChartsToPainter", "lens/report.go:firstValueSeriesRankColor", "lens/report.go:axisUnitForMax"]}
{"id": "C152", "title": "A missing module is named", "statement": "If the analysis fails because a version of a changed module is not in the module cache, the answer names that module and that version; what it says is missing is missing; an error about anything else is passed on; and the analysis goes on if and only if all versions are there.", "quantifier": "all lists of changed modules and dependencies, all states of the module cache", "why_tests_cant": "names and versions are recognised as parts of an error text, and which texts contain which others depends on all names and versions at once", "anchors": ["lens/engine.go:AnalysisEngine.Run", "lens/module.go:analyzeModuleChangesInternal", "lens/module.go:FindModulePathInCache"]}
{"id": "C153", "title": "The database accepts what is stored and keeps to the budget", "statement": "With every permitted cache budget the options given to the database are valid; whatever was stored before, the transaction of a save (old parts deleted, new parts and marker or the blob written) contains only entries the database accepts and never grows beyond its limits; and memory tables and caches together stay within the budget.", "quantifier": "all budgets, all sequences of storage operations, all keys up to 700 bytes and blobs up to 128 GB", "why_tests_cant": "limits show up only for blobs of many gigabytes and depend on the budget, the number of parts and the length of keys at once", "anchors": ["lens/storage.go:NewBadgerStorage", "lens/storage.go:badgerStorage.SaveState", "lens/engine.go:Config.Prepare"]}
{"id": "C154", "title": "A mutant is run against the tests that reach its file", "statement": "With targeted tests a mutant of a file is skipped exactly if no test reaches a changed function of that file; otherwise every test that reaches one is run and, if test names are used once, no other test.", "quantifier": "all sets of tests, targets and files", "why_tests_cant": "the set of tests goes through a table, a shell script and a regular expression, for any number of tests and files", "anchors": ["lens/mutation.go:RunMutationTesting", "lens/mutation.go:buildExecSelectTestsScript"]}
{"id": "C155", "title": "From the programs alone to the report", "statement": "If in each run the states of a function are sent in the order of their times, field names have no dots, and names of files and functions no separators, the report has one entry per test that tells what the test's program did before and after the update; and if every program does after the update what it did before (same texts at each moment of each function along each path, same panics; lines, times, addresses and foreign frames may differ), no difference and no changed field is reported.", "quantifier": "all programs, values in memory, schedules of workers, numbers of tests and limits", "why_tests_cant": "it joins capture, transport, aggregation, storage, comparison and report over all programs and schedules", "anchors": ["lens/engine.go:AnalysisEngine.Run", "lens/testmonitor.go:monitorTest", "lens/compare.go:CompareFunctionMaps", "lens/report.go:writeReportJSON"]}
{"id": "C156", "title": "Instrumented calls compile, and get and report the same values", "statement": "A call that compiles still compiles after the statements that report its receiver and arguments are put before it, the function gets the same receiver and arguments with the same types, and the reported fields are the receiver by its name or as recv and the arguments as arg0, arg1 and so on with their values.", "quantifier": "all calls, arguments, parameter types, imports and places of the call", "why_tests_cant": "whether generated code compiles depends on the types, constants, scopes and imports of every call site of every client project", "anchors": ["lens/asttweak.go:buildCallInstrumentationWithArgs", "lens/asttweak.go:isConstantExpr", "lens/asttweak.go:InjectFuncPointBeforeCall"]}
{"id": "C157", "title": "Jumps and ends of functions stay valid", "statement": "After replacing returns and reporting before calls every goto of a function body is still valid (its label is in the block or one around it and no variable declaration is jumped over), and a function with results still ends in a terminating statement.", "quantifier": "all function bodies, nestings, labels and selected calls", "why_tests_cant": "bodies nest without bound and the rules on goto, break and fallthrough interact with where statements are added", "anchors": ["lens/asttweak.go:InjectFuncPointReturnStates", "lens/asttweak.go:InjectFuncPointBeforeCall", "lens/asttweak.go:buildReturnInstrumentation"]}
{"id": "C158", "title": "The stack sent is that of the program", "statement": "The stack sent with an entry or state message is that of the program from the instrumented function outward: no function of the client, at most 2048 frames, always accepted by the server; so states are matched by the whole path through the project.", "quantifier": "all stacks, of any depth, and all names that fit", "why_tests_cant": "the depth of a stack is unbounded and the interesting ones are those near and beyond the limit", "anchors": ["lens/astclient.go:captureLensMonitorStack", "lens/astclient.go:sendLensPointMessage", "lens/astclient.go:sendLensPointStateMessage", "lens/astsrv.go:readStackFrames"]}
{"id": "C159", "title": "Reports are safe beside other goroutines", "statement": "Reporting the state of a goroutine changes nothing for the others: the instrumented program does only what the original could do, never waits for a report, and is ended by the runtime only if the original could be.", "quantifier": "all programs of any number of goroutines, all reports and all schedules", "why_tests_cant": "the number of interleavings is unbounded and the harmful ones are rare", "anchors": ["lens/astclient.go:streamField", "lens/astclient.go:sendLensPointStateMessage", "lens/asttweak.go:InjectFuncPointReturnStates"]}
{"id": "C160", "title": "Reports do not run code of the program", "statement": "The program notices nothing of a report and every report ends, whatever values are reported.", "quantifier": "all values, nestings and methods of key types", "why_tests_cant": "values nest without bound, and methods called by printing can make reports in turn without end", "anchors": ["lens/astclient.go:streamField", "lens/astclient.go:lensEncodeMessagePointPanic"]}
{"id": "C161", "title": "A test that could not be watched is not reported as unchanged", "statement": "If a test behaves differently after the update or fails since, the report on it shows this, however its attempts end (not built, out of time, failed, passed).", "quantifier": "all tests, attempts and endings of attempts", "why_tests_cant": "what a package does once instrumented depends on all of its source, and endings combine over four attempts with everything a test may do", "anchors": ["lens/exec.go:ExecGoTest", "lens/astexec.go:runMonitoredTest"]}
{"id": "C162", "title": "Every run of a test has a server that listens", "statement": "A run of a test is made only with a server that listens; if a port cannot be listened on, the analysis ends with an error and all servers are stopped.", "quantifier": "all numbers of servers, ports in use, and orders of steps of servers and analysis", "why_tests_cant": "it depends on the order of goroutines and on timing", "anchors": ["lens/astsrv.go:astExecServerStart", "lens/astsrv.go:SetPointHandler", "lens/astexec.go:RunModuleUpdateAnalysis"]}
{"id": "C163", "title": "Changed functions are found in the call graph", "statement": "A changed function is taken for its own node whatever the order in which the nodes are gone through, so that exactly the functions of the project from which calls lead to it (through literals, wrappers and type arguments) are reported; exported calls lead to the function called.", "quantifier": "all programs (declared and generic functions, literals, wrappers, initialisers), orders of nodes and changes", "why_tests_cant": "the order of a map is random and programs are unbounded", "anchors": ["lens/static.go:MakeSSAFunctionIdent", "lens/static.go:CallerStaticAnalysis", "lens/static.go:isInitFunction", "lens/static.go:extractCallGraphEdges"]}
{"id": "C164", "title": "Edits of files never wait for each other for ever", "statement": "Goroutines that insert points and lines, commit one file or all, add clean-up actions and restore, with any number of modifiers that share the locks of files, always come to an end: in every schedule, when no goroutine can go on, all have ended (the workers of commits too) and all locks are free; and no schedule goes on for ever.", "quantifier": "all numbers of goroutines, operations, modifiers, files sharing locks, workers and buffers, and all schedules", "why_tests_cant": "deadlocks need rare interleavings, and files that share a lock by their hash", "anchors": ["lens/asttweak.go:ASTModifier.Commit", "lens/asttweak.go:ASTModifier.CommitFile", "lens/asttweak.go:ASTModifier.InsertFuncLines", "lens/asttweak.go:ASTModifier.loadParsedFileNode", "lens/asttweak.go:ASTModifier.Restore", "lens/util.go:stripedMutex"]}
{"id": "C165", "title": "The client put into a directory is of its package, and no package is refused while it is edited", "statement": "While the files of a directory are instrumented and written by other goroutines, the goroutine that puts the client in ends with a complete client whose package clause names the package of the directory, whenever the directory has one package; and otherwise with an error.", "quantifier": "all directories, numbers of functions per file, and schedules of the goroutine of the client and those of the files", "why_tests_cant": "the reads must fall between the truncation and the write of a file", "anchors": ["lens/astexec.go:injectMonitorPoints", "lens/asttweak.go:ASTModifier.InjectASTClient", "lens/asttweak.go:detectPackageName", "lens/asttweak.go:parseDir", "lens/asttweak.go:ASTModifier.CommitFile"]}
{"id": "C166", "title": "Which fields a function reports does not depend on the schedule of instrumentation", "statement": "Whether types are known when a function is instrumented, and so which temporaries and fields its returns get, is the same in all schedules, and so the same before and after the update.", "quantifier": "all directories, numbers of functions per file, and schedules", "why_tests_cant": "it depends on which goroutine reads or writes a file of the package first", "anchors": ["lens/astexec.go:injectMonitorPoints", "lens/asttweak.go:buildTypesInfo", "lens/asttweak.go:ASTModifier.InjectFuncPointReturnStates", "lens/asttweak.go:ASTModifier.CommitFile", "lens/engine.go:DefaultTestResultAnalyzer.CompareTestResults"]}
{"id": "C167", "title": "The versions compared are those that the update changes in the build", "statement": "For modules given on the command line, the analysis of changes (with transitive dependencies) compares version v of a module with version w exactly if the build of the project has v before the update and w after it, where the versions in a build are those of minimal version selection; with an updated go.mod file likewise without transitive dependencies.", "quantifier": "all graphs of requirements between versions of modules, projects, and lists of modules to update", "why_tests_cant": "which version is built depends on the whole graph of requirements; tests use a few real modules", "anchors": ["lens/module.go:AnalyzeModuleChanges", "lens/module.go:analyzeModuleChangesInternal", "lens/module.go:parseProjectDeps", "lens/module.go:FindModulePathInCache", "lens/astexec.go:RunModuleUpdateAnalysis"]}
{"id": "C168", "title": "The mutation scripts work on the mutated file whatever its path", "statement": "While the tests for a mutant run, the mutated file has the content of the mutant and every other file its own; afterwards every file is as before and the exit code tells how the tests ended, whatever characters the paths have.", "quantifier": "all disks, all paths of the mutated file and of the mutant, all exit codes of the tests", "why_tests_cant": "Tests use paths without blanks and brackets; the effect of others depends on word splitting and on what other files exist.", "anchors": ["lens/mutation.go:buildExecSelectTestsScript", "lens/mutation.go:buildExecAllTestsScript", "lens/mutation.go:scriptFinishCheck"]}
{"id": "C169", "title": "Every run has an open storage of its own and removes only that", "statement": "Whatever runs of engines follow each other or overlap, from the moment a run gets its storage until it ends the storage is open and no other run has it; when no run is under way the directories on disk are those from before.", "quantifier": "all lists of starts and ends of runs, all engines and providers, all disks", "why_tests_cant": "Tests run an engine once with a storage of their own; what later and overlapping runs get depends on the order of their starts and ends.", "anchors": ["lens/engine.go:DefaultStorageProvider.NewStorage", "lens/engine.go:AnalysisEngine.Run", "lens/storage.go:NewBadgerStorage", "lens/storage.go:badgerStorage.Close"]}
{"id": "C170", "title": "The modules analysed do not depend on the order of maps", "statement": "For given requests and module files, the modules analysed, their versions and the changed functions reported are the same for every order in which maps are iterated and requests are listed.", "quantifier": "all environments of modules, all orders of the requirements and functions in maps, all orders of the requests", "why_tests_cant": "Map order in Go is random; a test sees one order per run and needs dependencies over two levels to see a difference.", "anchors": ["lens/module.go:AnalyzeModuleChanges", "lens/module.go:analyzeModuleChangesInternal"]}
{"id": "C171", "title": "Files keep their permissions", "statement": "A file that was instrumented and restored has the content and the permissions it had before, no other file changes and no backup is left; a file of the temporary copy of a project has the content and the permissions of the file it copies.", "quantifier": "all files and permissions, all masks for new files, any number of commits to a file, any set of files copied", "why_tests_cant": "Tests use files made by the test with the default permissions, for which nothing changes; there are 512 permissions and 512 masks and any number of commits.", "anchors": ["lens/file.go:CopyFile", "lens/file.go:replaceFile", "lens/file.go:CopyDir", "lens/asttweak.go:backupOrigFile", "lens/asttweak.go:Restore"]}
{"id": "C172", "title": "An analysis leaves the files as it found them", "statement": "After `RunModuleUpdateAnalysis`, wherever it ends (in an instrumentation, in the tests before or after the update, in the go command or at its end), every source, go.mod, go.sum and other file is as it was before, and neither backups nor generated files are left.", "quantifier": "all file systems, sources and modules, all sequences of edits in both instrumentations, all changes the go command makes to go.mod and go.sum, all places where the analysis can end and all failures of writes of changed files", "why_tests_cant": "The places where a run can stop and the sequences of edits before that are unbounded in number; a test sees a few runs that succeed.", "anchors": ["lens/astexec.go:RunModuleUpdateAnalysis", "lens/astexec.go:runMonitoredTestAnalysis", "lens/asttweak.go:Restore"]}
{"id": "C173", "title": "Files outside the project are reported without the place they are installed at", "statement": "A stack frame in a module of the module cache is reported with module, version and path inside the module, one in the standard library with its path inside the Go installation; neither contains the place of the cache or of the installation, so reports from different machines agree.", "quantifier": "all paths of files, projects, module caches, GOPATH and GOROOT", "why_tests_cant": "path shapes are unbounded; the tests pass no Go root at all", "anchors": ["lens/astexec.go:trimStackFile", "lens/astexec.go:RunModuleUpdateAnalysis"]}
