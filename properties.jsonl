{"id": "C01", "title": "A cached result is only returned for unchanged code, arguments and declared sources", "statement": "With the default (pickle) or cache engine: whenever a cached call returns without running the function, the returned value was produced by an earlier completed execution of the same function with equal bound arguments, the source digest of the function was then what it is now, and every declared SRC/SRCS file has now the content it had when that execution started (for a file that the execution also reported as external source: when it completed).", "quantifier": "every history of cached calls (completed, failed, interleaved between threads as long as no two equal calls overlap and no call that found an earlier result overlaps the completion of a call that found the same function changed; see C23 for the rest), file edits, clock readings, process restarts with edited scripts, and manual deletions; every set of functions, arguments and files; assuming a file's mtime changes when its content does and no digest collisions", "why_tests_cant": "stale results only show up for particular orders of edits, failures and calls; the set of histories is infinite", "anchors": ["lib/fbuild/db/database.py: Database.call", "lib/fbuild/db/backend.py: Backend.prepare, Backend.cache, check_call_files, check_call_file, add_file", "lib/fbuild/db/cache_backend.py: CacheBackend", "lib/fbuild/db/pickle_backend.py: PickleBackend"]}
{"id": "C02", "title": "An edited declared source is never forgotten", "statement": "With the default or cache engine: once the content of a declared source differs from what it was when the last successful execution for these arguments started, the cached call runs the function again; this stays so after any number of failed attempts, after other calls that use the same file have already seen the edit, and after restarts.", "quantifier": "every history as in C01 that ends with such a call", "why_tests_cant": "the failing interaction (a failed rebuild, or a sibling call refreshing the file table first) needs a particular history; tests cover one edit followed by one call", "anchors": ["lib/fbuild/db/backend.py: Backend.check_call_file, add_file", "lib/fbuild/db/cache_backend.py: delete_file, find_call_file"]}
{"id": "C03", "title": "An edited external source triggers a re-run (pickle and cache engines)", "statement": "With the default or cache engine: if a file that the last successful execution for these arguments registered with add_external_dependencies_to_call(srcs=...) has, at the next call, a content different from the one at the end of that execution (and still exists), the function runs again, also after failed attempts and after other calls saw the edit first.", "quantifier": "every history as in C01", "why_tests_cant": "depends on the interleaving of other calls that share the file", "anchors": ["lib/fbuild/db/database.py: add_external_dependencies_to_call", "lib/fbuild/db/backend.py: check_external_files", "lib/fbuild/db/cache_backend.py: save_external_files"]}
{"id": "C04", "title": "An edited external source triggers a re-run (sqlite engine)", "statement": "The same as C03 for the sqlite engine.", "quantifier": "every history of calls, edits, failures, restarts", "why_tests_cant": "needs two calls that share a header, or a failed rebuild, before the stale answer appears", "anchors": ["lib/fbuild/db/sqlite_backend.py: delete_file, find_external_srcs, save_external_files", "lib/fbuild/db/backend.py: add_file"]}
{"id": "C05", "title": "A missing destination forces a re-run", "statement": "With the default or cache engine: a cached call never returns a stored value while one of its DST/DSTS arguments, its DST return value or a destination registered with add_external_dependencies_to_call(dsts=...) does not exist.", "quantifier": "every database state, file system state and call", "why_tests_cant": "the destination can disappear at any time and for any subset of destinations", "anchors": ["lib/fbuild/db/database.py: Database.call lines 120-149"]}
{"id": "C06", "title": "Null build", "statement": "If a cached call completed and since it started no source file, external source, destination and no function source has changed, the same call returns the stored value and does not run the function; repeated any number of times, and also when other calls were made in between.", "quantifier": "every state reachable by any history, every call, any number of repetitions", "why_tests_cant": "holds for every function signature, set of files and earlier history", "anchors": ["lib/fbuild/db/database.py: Database.call", "lib/fbuild/db/backend.py: prepare, cache", "lib/fbuild/db/cache_backend.py"]}
{"id": "C07", "title": "Editing a cached function throws away all of its stored results", "statement": "While the source text of a cached function differs from what it was when a result was stored, that result is not returned, for any arguments; and once the function has been run with another text, none of the results stored before is ever returned again, even if the old text comes back.", "quantifier": "every history before and after the edit, all argument values", "why_tests_cant": "results stored under other arguments must go as well, in every order of calls", "anchors": ["lib/fbuild/db/backend.py: check_function, cache", "lib/fbuild/db/cache_backend.py: delete_function"]}
{"id": "C08", "title": "Editing a cached function re-runs the cached functions that call it", "statement": "If cached function f called cached function g during its last stored execution and the source of g has changed since, the next call of f does not return the stored value.", "quantifier": "every history of calls of f, g and others between the edit and the call of f", "why_tests_cant": "the result depends on which caller of g runs first after the edit", "anchors": ["lib/fbuild/db/backend.py: check_function lines 119-143, cache lines 100-109", "lib/fbuild/db/database.py: call lines 97-100, 176-185"]}
{"id": "C09", "title": "The dependency check of a function terminates and is exact", "statement": "For every set of recorded functions, deciding whether a function must be re-run terminates, and answers yes exactly when that function or some function reachable through recorded calls is not recorded or has another source digest now.", "quantifier": "every finite graph of recorded calls, including recursive and mutually recursive functions", "why_tests_cant": "recursion through arbitrary call graphs", "anchors": ["lib/fbuild/db/backend.py: check_function"]}
{"id": "C10", "title": "Caching one call does not disturb other stored results", "statement": "Completing a call of function f changes no stored result, source digest or external file set of another function, and if f's code was unchanged it changes no stored result of f under other arguments.", "quantifier": "every database state and completed call", "why_tests_cant": "frame property over all other entries", "anchors": ["lib/fbuild/db/cache_backend.py: save_call, save_call_file, save_external_files, delete_function", "lib/fbuild/db/backend.py: cache"]}
{"id": "C11", "title": "A call that raises stores nothing", "statement": "If the function raises, no result of that execution is ever returned later, and the results stored before stay as they were.", "quantifier": "every state, function and point of failure, any nesting of cached calls", "why_tests_cant": "exceptions can occur at any point of any nested execution", "anchors": ["lib/fbuild/db/database.py: Database.call lines 176-195"]}
{"id": "C12", "title": "A missing declared source is an error", "statement": "A cached call one of whose declared sources does not exist raises OSError, does not run the function and does not return a stored value.", "quantifier": "every database state and set of sources", "why_tests_cant": "any subset of sources may be missing in any database state", "anchors": ["lib/fbuild/db/backend.py: check_call_files, add_file lines 281-295"]}
{"id": "C13", "title": "Content changes are noticed in spite of the mtime shortcut", "statement": "Whenever the content of a file differs from the content last recorded for it, the next check of the file reports the digest of the current content.", "quantifier": "every sequence of writes and checks at any times with any mtime granularity", "why_tests_cant": "depends on the timing of writes relative to checks (within one tick of the clock)", "anchors": ["lib/fbuild/db/backend.py: add_file lines 287-300"]}
{"id": "C14", "title": "An edit made while the function is running is noticed by the next call", "statement": "If a source (declared or external) is edited after the cached function has read it and before its result is stored, the next call runs the function again.", "quantifier": "every interleaving of the edit with the phases of the call", "why_tests_cant": "depends on the time of the edit relative to the run", "anchors": ["lib/fbuild/db/backend.py: prepare, cache", "lib/fbuild/db/cache_backend.py: save_external_files lines 297-302", "lib/fbuild/db/sqlite_backend.py: save_external_files"]}
{"id": "C15", "title": "The calls recorded for a function are exactly the cached calls it makes", "statement": "The set of functions stored as called by an execution of f is the set of cached functions that this execution called directly.", "quantifier": "every tree of nested calls, including calls that raise and are caught, and every interleaving of several threads", "why_tests_cant": "needs every nesting, exception placement and interleaving", "anchors": ["lib/fbuild/db/database.py: Database.call lines 97-100, 176, 185"]}
{"id": "C16", "title": "External dependencies reach every enclosing cached call", "statement": "If a cached call f makes (directly or through other cached calls) a call that depends on an external file, then a later change of this file makes f run again.", "quantifier": "every tree of nested calls, and every pattern of hits and misses among the nested calls", "why_tests_cant": "depends on which nested calls are answered from the cache", "anchors": ["lib/fbuild/db/database.py: add_external_dependencies_to_call, call lines 142-149"]}
{"id": "C17", "title": "Deleting a function or a file from the database", "statement": "delete_function(name) makes every next call of that function run and reports whether anything was stored; delete_file(name) makes every next call that uses the file run and reports whether anything was stored; neither touches other functions and files.", "quantifier": "every database state, both engines", "why_tests_cant": "all states", "anchors": ["lib/fbuild/db/cache_backend.py: delete_function, delete_file", "lib/fbuild/db/sqlite_backend.py: delete_function, delete_file", "lib/fbuild/main.py: build lines 83-97"]}
{"id": "C18", "title": "Saving the state file is never torn by a crash", "statement": "If the process is killed at any point while the pickle database is being saved, the next start reads the complete old state, the complete new state, or finds no state file; it never reads a mixture or a partial file.", "quantifier": "every crash point, every old and new state, leftover files of earlier crashes", "why_tests_cant": "crash points", "anchors": ["lib/fbuild/db/pickle_backend.py: close lines 39-73, _connect"]}
{"id": "C19", "title": "A crash while saving does not lose the state", "statement": "If the process is killed at any point while the pickle database is being saved, the next start reads either the complete old or the complete new state.", "quantifier": "every crash point", "why_tests_cant": "crash points", "anchors": ["lib/fbuild/db/pickle_backend.py: close lines 58-73"]}
{"id": "C20", "title": "A state file of another database version is never used", "statement": "Connecting to a state file written by another version of the format starts with an empty database; this also holds after a crash at any point of the upgrade.", "quantifier": "every stored content and version, every crash point of the upgrade, both engines", "why_tests_cant": "crash points of the upgrade", "anchors": ["lib/fbuild/db/backend.py: connect lines 27-34", "lib/fbuild/db/pickle_backend.py: close, _connect", "lib/fbuild/db/sqlite_backend.py: close, _connect"]}
{"id": "C21", "title": "Results survive a restart", "statement": "Saving and loading the pickle database gives back the same stored functions, results and digests, so that every call is answered as if the process had not been restarted.", "quantifier": "every database state, any number of save/load cycles", "why_tests_cant": "all states", "anchors": ["lib/fbuild/db/pickle_backend.py", "lib/fbuild/db/backend.py: Pickler, Unpickler"]}
{"id": "C22", "title": "Recursive and parallel first calls work", "statement": "Calls of a cached function whose executions overlap (recursion or several threads) complete and store their results, whether or not the function was stored before.", "quantifier": "every nesting and interleaving, both engines", "why_tests_cant": "needs overlapping executions", "anchors": ["lib/fbuild/db/backend.py: cache", "lib/fbuild/db/sqlite_backend.py: save_function", "lib/fbuild/db/cache_backend.py: save_call"]}
{"id": "C23", "title": "Interleaved calls keep hits sound", "statement": "C01 holds when the phases of cached calls from different threads interleave arbitrarily.", "quantifier": "every interleaving of the prepare and store phases of any number of calls", "why_tests_cant": "schedules", "anchors": ["lib/fbuild/db/database.py: Database.call", "lib/fbuild/db/backend.py: prepare, cache"]}
{"id": "C24", "title": "Equal calls have equal keys", "statement": "Two ways of writing the arguments of a call (positional, keyword, defaults left out or given) get the same cache key exactly when Python binds them to the same parameter values.", "quantifier": "every signature (positional, defaults, *args, keyword-only, **kwargs) and every argument list", "why_tests_cant": "infinitely many signatures and argument lists", "anchors": ["lib/fbuild/functools.py: normalize_args, bind_args"]}
{"id": "C25", "title": "Invalid argument lists are rejected", "statement": "bind_args raises TypeError exactly for the argument lists for which Python itself would raise TypeError.", "quantifier": "every signature and every argument list", "why_tests_cant": "infinitely many signatures and argument lists", "anchors": ["lib/fbuild/functools.py: normalize_args"]}
{"id": "C26", "title": "map keeps the order", "statement": "Scheduler.map(f, srcs) returns [f(s) for s in srcs] in the order of srcs, whatever the number of threads and the order in which tasks finish, also for maps nested in tasks.", "quantifier": "every thread count, schedule and list, any nesting of maps, tasks that do not raise", "why_tests_cant": "schedules", "anchors": ["lib/fbuild/sched.py: Scheduler.map, _evaluate, WorkerThread"]}
{"id": "C27", "title": "Every task runs exactly once", "statement": "During one map or map_with_dependencies no task is started twice, and if the call returns normally every task has been run exactly once.", "quantifier": "every thread count, schedule, dependency graph", "why_tests_cant": "schedules", "anchors": ["lib/fbuild/sched.py: _evaluate, Task.can_run, Task.run"]}
{"id": "C28", "title": "Dependencies run first", "statement": "map_with_dependencies starts a task only after all of its dependencies have finished without exception.", "quantifier": "every schedule, thread count and dependency graph", "why_tests_cant": "schedules", "anchors": ["lib/fbuild/sched.py: map_with_dependencies, _evaluate"]}
{"id": "C29", "title": "Results of map_with_dependencies do not depend on the schedule", "statement": "The result list of map_with_dependencies is a function of the sources, the dependency function and the task function only; each result appears after the results of its dependencies.", "quantifier": "every schedule, thread count, graph", "why_tests_cant": "schedules", "anchors": ["lib/fbuild/sched.py: map_with_dependencies lines 147-195"]}
{"id": "C30", "title": "The scheduler never deadlocks and always finishes", "statement": "In every state reached while a map is being evaluated by at least one worker, some thread can make a step, and every schedule finishes after finitely many task and queue steps; also with maps nested in tasks to any depth and with one worker.", "quantifier": "every thread count >= 1, schedule, nesting depth", "why_tests_cant": "schedules, nesting", "anchors": ["lib/fbuild/sched.py: _evaluate, WorkerThread.run_one"]}
{"id": "C31", "title": "Dependency loops are reported", "statement": "map_with_dependencies raises DependencyLoop exactly when the dependencies among the given sources contain a cycle (and no task raised), and the exception names the tasks on a cycle.", "quantifier": "every dependency graph and schedule", "why_tests_cant": "all graphs", "anchors": ["lib/fbuild/sched.py: _evaluate lines 260-299, DependencyLoop"]}
{"id": "C32", "title": "Task exceptions reach the caller", "statement": "If a task raised, map does not return normally, and the exception it raises was raised by one of its tasks.", "quantifier": "every schedule, thread count, set of failing tasks", "why_tests_cant": "schedules", "anchors": ["lib/fbuild/sched.py: _evaluate, Task.run"]}
{"id": "C33", "title": "After a failure no further task is started", "statement": "Once map has raised because of a failed task, no other task of that map is started any more.", "quantifier": "every schedule", "why_tests_cant": "schedules", "anchors": ["lib/fbuild/sched.py: _evaluate lines 236-246, Task.run"]}
{"id": "C34", "title": "At most one worker runs controlled code", "statement": "Outside of interruptible sections at most one worker thread executes task code.", "quantifier": "every interleaving of tasks, interruptible sections and calls from the main thread", "why_tests_cant": "schedules", "anchors": ["lib/fbuild/sched.py: interruptible, WorkerThread.run, __controlling_lock"]}
{"id": "C35", "title": "Shutdown ends all workers", "statement": "Scheduler.shutdown returns, with all worker threads ended, when no map is being evaluated; it also does so when it is called while maps are being evaluated.", "quantifier": "every schedule, thread count", "why_tests_cant": "schedules", "anchors": ["lib/fbuild/sched.py: shutdown, WorkerThread.run, _evaluate"]}
{"id": "C36", "title": "Database requests are answered in order, each with its own answer", "statement": "Every call through the RPC thread receives the result (or exception) of its own request, requests are executed one at a time in the order in which they were queued, and each exactly once.", "quantifier": "every number of calling threads and schedule", "why_tests_cant": "schedules", "anchors": ["lib/fbuild/rpc.py: RPC"]}
{"id": "C37", "title": "A database request never blocks forever", "statement": "After start() has returned, every call returns or raises after finitely many steps of the server, whatever the handler does.", "quantifier": "every schedule and handler outcome (result, Exception, BaseException)", "why_tests_cant": "schedules, fatal errors", "anchors": ["lib/fbuild/rpc.py: RPC.run, RPC.call, RPC.start, RPC.join"]}
{"id": "C38", "title": "fnmatch implements shell patterns", "statement": "fnmatch.fnmatchcase(name, pat) holds exactly when name matches pat where * is any string, ? any character, [seq] / [!seq] a set, {a,b} alternatives (nested), and other characters stand for themselves.", "quantifier": "every name and pattern", "why_tests_cant": "infinite strings", "anchors": ["lib/fbuild/fnmatch.py: _translate, _translate_subexpression"]}
{"id": "C39", "title": "glob.escape is exact", "statement": "For every string s, a file name matches glob.escape(s) exactly when it is s.", "quantifier": "every s and every file name", "why_tests_cant": "infinite strings", "anchors": ["lib/fbuild/glob.py: escape", "lib/fbuild/fnmatch.py"]}
{"id": "C40", "title": "glob returns exactly the matching existing paths", "statement": "glob(pattern) returns every existing path whose components match the pattern components (hidden names only for patterns starting with a dot, ** any number of directories), and nothing else.", "quantifier": "every directory tree and pattern", "why_tests_cant": "all trees and patterns", "anchors": ["lib/fbuild/glob.py: iglob, glob1, glob0, glob2"]}
{"id": "C41", "title": "addroot puts files below the root", "statement": "p.addroot(r) lies below directory r, applying it twice is the same as once, removeroot undoes it, and different relative paths stay different.", "quantifier": "every path and root", "why_tests_cant": "infinite strings", "anchors": ["lib/fbuild/path.py: Path.addroot, Path.removeroot"]}
{"id": "C42", "title": "Extension replacement", "statement": "replaceext changes only the extension: directory and stem are kept, the new extension is what splitext then returns, and replacing again overrides.", "quantifier": "every path and extension", "why_tests_cant": "infinite strings", "anchors": ["lib/fbuild/path.py: Path.replaceext, replaceexts, splitext"]}
{"id": "C43", "title": "splitall loses nothing", "statement": "Path.splitall terminates on every path, and joining its parts gives the path back up to redundant slashes.", "quantifier": "every path", "why_tests_cant": "infinite strings", "anchors": ["lib/fbuild/path.py: Path.splitall"]}
{"id": "C44", "title": "install builds first", "statement": "`fbuild install` (also combined with configure) runs configure, then build, then install.", "quantifier": "every list of requested targets", "why_tests_cant": "all target lists", "anchors": ["lib/fbuild/main.py: build lines 99-133"]}
{"id": "C45", "title": "Installed files stay below destdir", "statement": "Context.install schedules every file to be installed below install_destdir; the target is destdir/prefix/subdir/name, or destdir/subdir/name when subdir is absolute.", "quantifier": "every destdir, prefix, subdir, rename and path without ..", "why_tests_cant": "infinite strings", "anchors": ["lib/fbuild/context.py: Context.install"]}
{"id": "C46", "title": "Installing does not change the source and gives the target its permissions", "statement": "After installing, the target has the content of the source (or is a copy of the link), has the permissions asked for, and the source is unchanged.", "quantifier": "every file system state", "why_tests_cant": "all states", "anchors": ["lib/fbuild/install.py: LocalCommander.install"]}
{"id": "C47", "title": "Platform matchers", "statement": "A platform matcher matches exactly when all plain names are in the platform and no name with ! is.", "quantifier": "every platform and matcher", "why_tests_cant": "all sets", "anchors": ["lib/fbuild/builders/platform.py: platform_match"]}
{"id": "C48", "title": "Platform options are applied in order", "statement": "parse_platform_options applies exactly the options of the matching entries, in order; key sets, key+ appends, key- removes; other keyword arguments and the caller's values are left alone.", "quantifier": "every platform, option list, keyword dictionary", "why_tests_cant": "all inputs", "anchors": ["lib/fbuild/builders/platform.py: parse_platform_options"]}
{"id": "C49", "title": "Version checks", "statement": "check_version succeeds exactly when the version equals / is at least / is at most the required ones in the order of version numbers, and raises ConfigFailed otherwise.", "quantifier": "every version and requirement", "why_tests_cant": "all versions", "anchors": ["lib/fbuild/builders/__init__.py: check_version"]}
{"id": "C50", "title": "find_program takes the first candidate", "statement": "find_program returns the first name (in order) that exists in some search directory, and there the first directory in order; it raises MissingProgram only if no candidate exists.", "quantifier": "every name list, path list, file system", "why_tests_cant": "all inputs", "anchors": ["lib/fbuild/builders/__init__.py: find_program"]}
{"id": "C51", "title": "Outcome of execute", "statement": "Context.execute returns normally exactly when the command was not timed out, was not interrupted, and exited with 0 or errors are ignored.", "quantifier": "every outcome of the child process and option combination", "why_tests_cant": "all combinations, timing of the timer", "anchors": ["lib/fbuild/context.py: Context.execute"]}
{"id": "C52", "title": "No log message is lost", "statement": "Every message passed to the logger is written to the log file exactly once, and messages of one thread keep their order.", "quantifier": "every interleaving of threads and nesting of buffers", "why_tests_cant": "schedules", "anchors": ["lib/fbuild/console.py: Log.write, _write, flush, log_from_thread"]}
{"id": "C53", "title": "Log lines of different threads do not mix", "statement": "A line written by one thread in several pieces is not broken by output of another thread.", "quantifier": "every interleaving", "why_tests_cant": "schedules", "anchors": ["lib/fbuild/console.py: Log.write, _write, flush, log_from_thread"]}
{"id": "C54", "title": "Linker order of libraries", "statement": "On the linker command line each library stands left of the libraries it depends on, and each appears once.", "quantifier": "every library dependency graph", "why_tests_cant": "all graphs", "anchors": ["lib/fbuild/builders/c/gcc/__init__.py: Gcc.__call__"]}
{"id": "C55", "title": "Include directories keep their order", "statement": "The compiler receives every include directory given exactly once, in the order given.", "quantifier": "every include list", "why_tests_cant": "all lists", "anchors": ["lib/fbuild/builders/c/gcc/__init__.py: Gcc.__call__"]}
{"id": "C56", "title": "Dependency files are read back", "statement": "The headers read from the compiler's dependency file are the headers the compiler wrote.", "quantifier": "every list of file names", "why_tests_cant": "infinite strings, line continuation anywhere", "anchors": ["lib/fbuild/builders/c/gcc/__init__.py: Builder.uncached_compile"]}
{"id": "C57", "title": "Equality of persistent objects is an equivalence", "statement": "Comparing persistent objects (used to look up cached calls) is reflexive, symmetric and transitive.", "quantifier": "every pair of objects", "why_tests_cant": "all objects", "anchors": ["lib/fbuild/db/__init__.py: PersistentObject.__eq__"]}
{"id": "C58", "title": "The key under which a result is stored is the arguments of the call", "statement": "The arguments a result is stored under are those the function was called with, also if the function changes its argument values in place.", "quantifier": "every function behaviour", "why_tests_cant": "all behaviours", "anchors": ["lib/fbuild/db/database.py: Database.call", "lib/fbuild/db/cache_backend.py: save_call"]}
{"id": "C59", "title": "Incremental build equals clean build", "statement": "For a build script whose functions depend only on their arguments, declared sources, reported external sources and nested cached calls, a build with any earlier database gives the same result as a build with an empty database.", "quantifier": "every script, history of earlier builds, edits", "why_tests_cant": "all scripts and histories", "anchors": ["lib/fbuild/db/database.py: Database.call", "lib/fbuild/db/backend.py"]}
{"id": "C60", "title": "Configuration header substitution", "statement": "text builders substitute every @name@ / #undef occurrence by its definition and leave all other text unchanged; with an undefined name they raise and write no file.", "quantifier": "every text and definitions", "why_tests_cant": "infinite strings", "anchors": ["lib/fbuild/builders/text.py"]}
{"id": "C61", "title": "A call whose result could not be stored completely is not a success", "statement": "If a cached call raises an exception, also one raised while its result is being stored (such as a reported external source that does not exist), later equal calls do not return the value of that failed call.", "quantifier": "every history, every set of reported external files", "why_tests_cant": "needs a reported file that disappears before the result is stored, and then the same call again", "anchors": ["lib/fbuild/db/backend.py: Backend.cache", "lib/fbuild/db/cache_backend.py: save_call, save_external_files", "lib/fbuild/db/database.py: Database.call lines 185-195"]}
{"id": "C62", "title": "A missing destination forces a re-run (sqlite engine)", "statement": "The same as C05 for the sqlite engine.", "quantifier": "every history, file system state and call", "why_tests_cant": "the destination can disappear at any time and for any subset of destinations", "anchors": ["lib/fbuild/db/sqlite_backend.py: save_external_files", "lib/fbuild/db/database.py: Database.call lines 120-149"]}
{"id": "C63", "title": "A failed or unknown target prevents the installation", "statement": "If one of the targets asked for does not exist or raises, nothing is installed and the build reports failure.", "quantifier": "every list of targets, registered targets and their outcomes, every list of files to install", "why_tests_cant": "the failing target can be any of them, before or after targets that registered files to install", "anchors": ["lib/fbuild/main.py: build, main"]}
{"id": "C64", "title": "A result from the table is what the function returned", "statement": "The value handed out for a recorded call equals the value that an execution with equal arguments returned, whatever the callers did to the objects in between.", "quantifier": "every sequence of overlapping calls, changes of objects, deletions and new processes, both kinds of engine", "why_tests_cant": "the change of an object can happen at any point between two calls, by any holder of the object", "anchors": ["lib/fbuild/db/database.py: Database.call", "lib/fbuild/db/cache_backend.py: find_call, save_call", "lib/fbuild/db/sqlite_backend.py: find_call, save_call"]}
{"id": "C65", "title": "addprefix changes only the file name", "statement": "Path.addprefix keeps the directory part of a path and puts the prefix in front of the file name part, for a prefix without a slash.", "quantifier": "every path and prefix", "why_tests_cant": "infinite strings: empty directory parts, repeated and trailing slashes", "anchors": ["lib/fbuild/path.py: Path.addprefix"]}
{"id": "C66", "title": "A value returned from the database is the value of the last stored execution (sqlite engine)", "statement": "The same as C01, C02 and C07 for the sqlite engine: a call answered from the database returns what the last stored execution with equal arguments returned, and the function's text and the contents of its declared sources are the same as when that execution started.", "quantifier": "every history of overlapping calls, edits, exceptions, deletions, restarts and crashes", "why_tests_cant": "row ids, cascading deletions, uncommitted changes and rollbacks interact over unbounded histories", "anchors": ["lib/fbuild/db/sqlite_backend.py: find_function, find_call, check_call_files, check_external_files, save_call, add_file", "lib/fbuild/db/backend.py: Backend.prepare, Backend.cache"]}
{"id": "C67", "title": "Results of different functions are not mixed up", "statement": "A call of a cached function, method or constructor is only answered with a result that the same function produced; functions are told apart also if they have equal names in different scopes, classes or modules.", "quantifier": "every set of definitions: functions, classes, inheritance, overriding, closures", "why_tests_cant": "collisions depend on the combination of all definitions of all modules of a build script", "anchors": ["lib/fbuild/db/database.py: Database._find_function_name, add_function_to_map", "lib/fbuild/db/__init__.py: PersistentMeta.__init__"]}
{"id": "C68", "title": "Every cached function can be called", "statement": "For every cached function, method (also one reached through super) and constructor that a script defines, the database finds a digest; no call raises KeyError.", "quantifier": "every class hierarchy", "why_tests_cant": "depends on depth of inheritance and on which classes override a method", "anchors": ["lib/fbuild/db/database.py: Database.add_function_to_map, get_function_digest_from_map", "lib/fbuild/db/__init__.py: PersistentMeta.__init__"]}
{"id": "C69", "title": "Editing a cached function changes its digest", "statement": "If the text of a cached function, method or constructor (with its decorators) is edited, the digest under which its results are stored changes.", "quantifier": "every script before and after the edit, every function in it", "why_tests_cant": "a test edits one function; which text is digested depends on how it was defined and decorated", "anchors": ["lib/fbuild/db/database.py: Database._digest_function, _find_function_name", "lib/fbuild/functools.py: wraps, unwrap"]}
{"id": "C70", "title": "Declared files are the files given for annotated parameters", "statement": "The sources and destinations that a call declares are exactly the files given for the parameters annotated with SRC, SRCS, OPTIONAL_SRC, DST, DSTS or OPTIONAL_DST, whether given by position, by keyword or by default.", "quantifier": "every signature, every annotation, every way to pass the arguments", "why_tests_cant": "combinations of parameter kinds, defaults and annotations are unbounded", "anchors": ["lib/fbuild/db/database.py: Database._find_call_filenames", "lib/fbuild/db/__init__.py: SRC, SRCS, DST, DSTS, OPTIONAL_SRC, OPTIONAL_DST", "lib/fbuild/functools.py: bind_args"]}
{"id": "C71", "title": "OCaml: the dependencies of a source are the files of the modules it refers to", "statement": "source_dependencies returns, for each module that ocamldep names, its interface and its implementation: the files in the current directory whose name is the module's in either case of the first letter, or else those in the include directories; and for an implementation its own interface. It returns nothing else.", "quantifier": "every directory contents, include path, list of modules, source", "why_tests_cant": "depends on which spellings of which files exist in which of the directories", "anchors": ["lib/fbuild/builders/ocaml/__init__.py: Ocamldep.modules, Ocamldep.source_dependencies"]}
{"id": "C72", "title": "OCaml: scan returns the closure of the dependencies", "statement": "scan(src) returns exactly the files reached from src through source dependencies (for bytecode: leaving out implementations that have their interface beside them), it returns for all graphs of files, and a compiled object is rebuilt when any of these files changes.", "quantifier": "every graph of dependencies between files, every sequence of edits", "why_tests_cant": "graphs are unbounded, may be cyclic, and change between builds", "anchors": ["lib/fbuild/builders/ocaml/__init__.py: BytecodeBuilder.scan, Ocamlopt.scan, Builder._add_compile_dependencies"]}
{"id": "C73", "title": "OCaml: objects are linked in dependency order", "statement": "build_exe and build_lib link the objects that the caller gives and the object of each implementation among the sources, each once, after the objects of the modules it refers to, and no compiled interfaces.", "quantifier": "every set of sources without a loop, any number of threads, every schedule", "why_tests_cant": "the order is computed from a graph, by tasks that end in any order", "anchors": ["lib/fbuild/builders/ocaml/__init__.py: Builder.build_objects, Builder._build_link, Builder.build_pack, Builder._uncached_link", "lib/fbuild/sched.py: Scheduler.map_with_dependencies"]}
{"id": "C74", "title": "nm: objects are put before the objects they need", "statement": "Nm.object_dependencies returns each given object once, before every object that defines a symbol it needs; the same when the result comes from the cache.", "quantifier": "every set of objects and symbols", "why_tests_cant": "graphs are unbounded and may be cyclic; the returned value is kept in the cache", "anchors": ["lib/fbuild/builders/nm.py: Nm.object_dependencies, Nm._run"]}
{"id": "C75", "title": "Config: fields() lists each test of a class once", "statement": "fields() of a class of configuration tests lists each attribute of the class that is a test, once, with the value that the attribute has, and nothing else: inherited ones that are not defined again first, then those of the class, in the order in which the body of the class assigns them.", "quantifier": "every hierarchy of classes, every body", "why_tests_cant": "hierarchies and bodies are unbounded; overriding, deleting and several bases interact", "anchors": ["lib/fbuild/config/__init__.py: _FieldTable, TestMeta.__new__, TestMeta.add_to_class, Test.fields"]}
{"id": "C76", "title": "Config: a C++ test looks for its name in the namespace of its class", "statement": "Each test of a class with a namespace looks for its own name, or the name that it was given, in the namespace of the class that declares it; macros are looked for under the plain name; creating a class does not change the tests of other classes.", "quantifier": "every class, every namespace, every set of descriptors", "why_tests_cant": "descriptors are shared, mutable objects: what a test looks for depends on which classes were created before", "anchors": ["lib/fbuild/config/cxx/__init__.py: TestMeta.__new__", "lib/fbuild/config/c/__init__.py: AbstractFieldDescriptor.contribute_to_class"]}
{"id": "C77", "title": "Config: what a test returns", "statement": "A test returns what it declares if the header of its class exists and the program was built, ran without error and wrote what was asked for; it returns None in every other case. Alignment, size and sign of a type are those that the program printed.", "quantifier": "every descriptor, every header, every behaviour of the compiler and of the program", "why_tests_cant": "the output of programs is unbounded", "anchors": ["lib/fbuild/config/c/__init__.py: AbstractFieldDescriptor.__call__, process_stdout"]}
{"id": "C78", "title": "Config: functions(), macros(), types() and so on are complete", "statement": "functions() yields one pair of name and result for each function that the class tests for, in the order of fields(), and nothing else; the same for macros(), types(), int_types(), structs() and variables().", "quantifier": "every hierarchy of classes", "why_tests_cant": "hierarchies of classes are unbounded", "anchors": ["lib/fbuild/config/c/__init__.py: Test.functions, Test.macros, Test.types, Test.int_types, Test.structs, Test.variables"]}
{"id": "C79", "title": "Config: a stored result belongs to the test that is asked for", "statement": "When the result of a configuration test is taken from the database, it is the result of the same test; when the test is edited, it is run again.", "quantifier": "every set of classes, every edit of a test", "why_tests_cant": "two classes, or two versions of a class, may agree in all that the database looks at", "anchors": ["lib/fbuild/config/c/__init__.py: AbstractFieldDescriptor.__call__, Test.__eq__", "lib/fbuild/db/database.py: Database._find_function_name, Database._digest_function"]}
{"id": "C80", "title": "gcc: the compiler gets what the builder and the call ask for", "statement": "The command that a gcc builder runs has each macro, warning, include directory and machine flag of the builder and of the call, once, and no others; the flags of both in the order given, in front of the sources; the flags for debugging, profiling and optimisation just if they are wanted, where the call overrides the builder; and no library if it only compiles.", "quantifier": "every builder, every call", "why_tests_cant": "builder and call have some thirty options that may be combined freely", "anchors": ["lib/fbuild/builders/c/gcc/__init__.py: Gcc.__init__, Gcc.__call__"]}
{"id": "C81", "title": "gcc: the linker finds the libraries that were given", "statement": "The command names every library of the builder and of the call and the libraries these depend on, once, each left of those it depends on, with the external libraries and directories they ask for; for each of them the linker finds the file that was given.", "quantifier": "every graph of libraries, every directory", "why_tests_cant": "graphs of libraries and the contents of the directories searched are unbounded", "anchors": ["lib/fbuild/builders/c/gcc/__init__.py: Gcc.__call__", "lib/fbuild/builders/c/__init__.py: Library"]}
{"id": "C82", "title": "gcc: a static library contains the objects it was given", "statement": "After link_lib of the static builder the archive contains each object file that was given, with its present contents, and nothing else.", "quantifier": "every list of object files, every archive that was there before", "why_tests_cant": "what the archive contains depends on all earlier builds", "anchors": ["lib/fbuild/builders/c/gcc/__init__.py: Ar.__call__", "lib/fbuild/path.py: Path.globall"]}
{"id": "C83", "title": "gcc: different sources are built into different files", "statement": "Two different sources compiled by one builder give two different object files below the buildroot, and two libraries or executables of different names give two files; a later build step never overwrites the output of an earlier one.", "quantifier": "every pair of paths", "why_tests_cant": "paths are unbounded; collisions come from the interplay of extensions, buildroot and prefixes", "anchors": ["lib/fbuild/builders/c/gcc/__init__.py: Builder.uncached_compile, Builder.uncached_link_lib, Builder.uncached_link_exe", "lib/fbuild/path.py: Path.addroot, Path.replaceext"]}
{"id": "C84", "title": "C projects: after a successful build nothing is out of date", "statement": "When a script that compiles and links has succeeded, each object file, library and executable is what its tool makes of the files that are there now (build_objects, build_lib and build_exe included), whatever was built before and whatever sources, headers and build functions were edited in between.", "quantifier": "every project, every sequence of builds and edits", "why_tests_cant": "the sequence of edits and builds is unbounded; a wrong answer needs a particular history", "anchors": ["lib/fbuild/builders/__init__.py: AbstractCompiler.build_objects", "lib/fbuild/builders/__init__.py: AbstractLibLinker.link_lib, build_lib", "lib/fbuild/builders/__init__.py: AbstractExeLinker.link_exe, build_exe", "lib/fbuild/builders/c/gcc/__init__.py: Builder.compile", "lib/fbuild/db/database.py: Database.call"]}
{"id": "C85", "title": "file.copy puts a copy of the file where it was asked for", "statement": "If copy(src, dst) returns d, then d is dst below the buildroot, or the name of src in that directory; d is a file with the content and mode of src, src is unchanged, and nothing else changes except that directories on the way to d are made. It returns if src is a file, no file is where a directory is needed, no directory is at the destination, and the destination is not src itself.", "quantifier": "every tree of files and directories, every src, dst and buildroot", "why_tests_cant": "what happens depends on what exists at the destination and on the spelling of the path; trees and paths are unbounded", "anchors": ["lib/fbuild/builders/file.py: copy, _copy_or_move", "lib/fbuild/path.py: Path.addroot, Path.makedirs, Path.copy"]}
{"id": "C86", "title": "file.move moves the file and can be part of a script that is run again", "statement": "If move(src, dst) returns d, then d has the content and mode src had, src is gone, and nothing else changes except for new directories. A script that has succeeded succeeds again.", "quantifier": "every tree of files and directories, every src, dst and buildroot; every state of the database", "why_tests_cant": "the second build meets a tree that the first one left", "anchors": ["lib/fbuild/builders/file.py: move, _copy_or_move", "lib/fbuild/path.py: Path.move", "lib/fbuild/db/backend.py: Backend.check_call_files"]}
{"id": "C87", "title": "file.copy_regex copies exactly the files that match", "statement": "If copy_regex returns, it has copied exactly those files below srcdir that are not excluded and whose path relative to srcdir matches, each to its own destination, and returns the destinations; a later build does the same for the files that are there then.", "quantifier": "every tree, every pattern (as a function on texts), every srcdir and dstdir", "why_tests_cant": "trees and patterns are unbounded; the relative path is found by counting characters", "anchors": ["lib/fbuild/builders/file.py: copy_regex", "lib/fbuild/path.py: Path.find"]}
{"id": "C88", "title": "guess finds the first builder that works, for the compiler that was asked for", "statement": "guess returns the builders of the first entry of its table that is for the platform and whose builders can be made, or raises ConfigFailed if there is none; with exe, the entry is for the compiler that exe is; static gives a static and shared a shared builder; the arguments are not changed.", "quantifier": "every table of builders, platform, executable, and every outcome of the builder functions", "why_tests_cant": "which compilers are installed differs from machine to machine; the table has entries for systems the tests do not run on", "anchors": ["lib/fbuild/builders/c/__init__.py: identify_compiler, Guesser, guess", "lib/fbuild/builders/cxx/__init__.py: guess"]}
{"id": "C89", "title": "libraries and executables are equal just if they were built in the same way", "statement": "For texts, paths, Library and Executable objects == is an equivalence that holds just if the class, the path and all that was recorded (libs, libpaths, external_libs, recursively) agree; equal objects have equal hashes; != is the opposite of ==.", "quantifier": "every pair of objects, nested to any depth", "why_tests_cant": "the objects are nested without limit; the comparison is spread over two classes and str", "anchors": ["lib/fbuild/builders/c/__init__.py: Library.__eq__, Library.__hash__, Executable.__eq__, Executable.__hash__"]}
{"id": "C90", "title": "msvc: the headers a source includes are dependencies", "statement": "compile reports exactly the headers that the compiler says it has included, and shows the user all its other output.", "quantifier": "every output of the compiler", "why_tests_cant": "the output is unbounded text that is taken apart by a regular expression", "anchors": ["lib/fbuild/builders/c/msvc.py: Builder.compile, Builder._dep_regex"]}
{"id": "C91", "title": "msvc: the linker is given each needed library once and in order", "statement": "The command line of link names each library that is needed, directly or by another library, once and left of those it needs, all external libraries, and the directories in which libraries are to be searched; a DLL is linked by its import library.", "quantifier": "every graph of libraries, every linker and call", "why_tests_cant": "graphs of libraries are unbounded", "anchors": ["lib/fbuild/builders/c/msvc.py: Link._run, DllLink.__call__", "lib/fbuild/builders/c/__init__.py: Library"]}
{"id": "C92", "title": "sqlite: a killed process loses no stored results", "statement": "What a process has committed to the database is found by the next process, however the processes in between have ended.", "quantifier": "every sequence of processes, each with any committed changes, ended by close or by a kill; every database file at the start", "why_tests_cant": "processes that are killed; what the next process does depends on a row that is written only at the end", "anchors": ["lib/fbuild/db/sqlite_backend.py: SqliteBackend._connect, SqliteBackend.close, SqliteBackend.cache", "lib/fbuild/db/backend.py: Backend.connect"]}
{"id": "C93", "title": "format_substitute fills in a template", "statement": "format_substitute returns just if the text (line ends read as \\n) is a format string for the patterns; the file then has the text with every field replaced by its value, {{ and }} by braces, and all else as it was. In particular a template of arbitrary text with doubled braces and of defined names in braces gives the text with the values. With an undefined name, or braces that do not match, it raises and changes no file.", "quantifier": "every text, every patterns; attributes, conversions and format(value, spec) are arbitrary functions", "why_tests_cant": "infinite strings", "anchors": ["lib/fbuild/builders/text.py: format_substitute"]}
{"id": "C94", "title": "The exit status tells whether everything was done", "statement": "A process ends with status 0 exactly if fbuildroot.py could be imported and either (--clean) the buildroot is gone, or the buildroot was prepared, the database was loaded, the build returned, the temporary directory was removed, the database was saved and its thread ended; unless the script itself asks for status 0 by sys.exit. Once the build was begun, the database is saved in the state in which the build left it, however the build ended, and the scheduler is shut down at last.", "quantifier": "every outcome (return, fbuild.Error, KeyboardInterrupt, SystemExit, any other exception) of every step of main, in every state", "why_tests_cant": "The number of combinations of failing steps is large, and a step can fail in any state; nested try/except/else/finally replaces exceptions by others.", "anchors": ["lib/fbuild/main.py:171-214", "lib/fbuild/context.py:67-102", "fbuild-light"]}
{"id": "C95", "title": "The results of a build that failed or was interrupted are kept", "statement": "If a build ends by an exception or an interrupt, the next process finds in the database everything that the build stored (pickle and sqlite engines).", "quantifier": "every state file at the beginning, every sequence of stored results, every way in which the build can end", "why_tests_cant": "Needs all ways in which a build can end, at all points, with all contents of the database.", "anchors": ["lib/fbuild/main.py:192-210", "lib/fbuild/context.py:81-99", "lib/fbuild/db/pickle_backend.py:39-73", "lib/fbuild/db/sqlite_backend.py:38-67"]}
{"id": "C96", "title": "--do-not-save-database leaves the database as it was", "statement": "After a process with --do-not-save-database the next process finds in the database what this one found.", "quantifier": "every state file, every sequence of stored results, every way in which the process can end, every engine and the other options", "why_tests_cant": "A test sees one state file and one build.", "anchors": ["lib/fbuild/context.py:81-99", "lib/fbuild/options.py:124-125"]}
{"id": "C97", "title": "--rebuild begins with an empty database", "statement": "With --rebuild a build begins with empty tables, so that no result of an earlier build is used; this also works if the state file cannot be read or has another version.", "quantifier": "every content of the state file, every engine", "why_tests_cant": "The contents of the file are unbounded, and broken files come in many forms.", "anchors": ["lib/fbuild/context.py:81-88", "lib/fbuild/db/backend.py:27-34"]}
{"id": "C98", "title": "A command in the log can be run again", "statement": "The text that execute writes to the log for a command given as a list, pasted into a POSIX shell, runs the same command: the shell splits it into the same words.", "quantifier": "every list of words", "why_tests_cant": "Quoting goes wrong for combinations of characters; the words are unbounded.", "anchors": ["lib/fbuild/context.py:122-131"]}
{"id": "C99", "title": "A program finds the shared libraries that were built for it", "statement": "A program that is run by Builder.run or by execute with runtime_libpaths finds each shared library it was linked with in the directory in which it was built.", "quantifier": "every environment, every set of libraries with any dependencies among them, every contents of the directories", "why_tests_cant": "Depends on the environment of the user and on what is installed there.", "anchors": ["lib/fbuild/context.py:146-160", "lib/fbuild/builders/c/__init__.py:171-176"]}
{"id": "C100", "title": "relpath leads to the same file, and jar gets the files it was given", "statement": "Path.normpath and Path.abspath return paths that lead to the same file. Path.relpath returns a relative path that leads, from the directory given as start, to the file to which the path leads from the working directory; a path below start is returned as the names below it. Jar.create runs jar in the directory asked for (or the buildroot) and its arguments are, from there, exactly the manifest, the archive and the sources that were given, in that order.", "quantifier": "every working directory, path and start with any dots, parent directories and repeated slashes, in a tree without symbolic links; every list of sources", "why_tests_cant": "Paths are unbounded, and a wrong number of parent directories shows only for some relative positions of the two.", "anchors": ["lib/fbuild/path.py:131-133", "lib/fbuild/path.py:319-336", "lib/fbuild/builders/java.py:32-68"]}
{"id": "C101", "title": "Cached calls in several threads do what they do one after the other", "statement": "scheduler.map and scheduler.map_with_dependencies over a cached function: however the steps of the tasks are interleaved, and whatever was built before, each task that has finished returned (or raised) what it does if the tasks run one after the other without a database, and at the end the files are those that the tasks leave one after the other.", "quantifier": "every state of the database that earlier builds, parallel builds, edits and processes can leave, every number of tasks, every dependency relation among them, every interleaving of their steps", "why_tests_cant": "The number of interleavings grows exponentially with the number of steps, and the outcome also depends on what was stored before.", "anchors": ["lib/fbuild/db/database.py:69-207", "lib/fbuild/db/database.py:313-332", "lib/fbuild/sched.py", "lib/fbuild/db/backend.py:47-115"]}
{"id": "C102", "title": "The database works as before after cached calls in several threads", "statement": "After cached calls were made in several threads (scheduler.map), with their steps in any order, later builds return what builds without a database return and leave the same files.", "quantifier": "every state before the calls, every number of tasks and interleaving, every later build", "why_tests_cant": "What goes wrong is stored silently and shows only in a later build, for few interleavings.", "anchors": ["lib/fbuild/db/database.py:29", "lib/fbuild/db/database.py:97-100", "lib/fbuild/db/database.py:176-185", "lib/fbuild/db/backend.py:119-165"]}
{"id": "C103", "title": "Each program and library has its own object files", "statement": "build_lib and build_exe of the C builder compile the sources of a program or library to files that no other program or library uses: two sources that are compiled to the same object file are the same source of the same target; no program or library is linked to the file of an object; objects and libraries of a static and of a shared builder never have the same file.", "quantifier": "every pair of targets and sources, every build directory, every platform", "why_tests_cant": "The paths are unbounded; a clash shows only for particular pairs of paths, and then as an object compiled with the wrong options.", "anchors": ["lib/fbuild/builders/c/__init__.py:139-171", "lib/fbuild/builders/platform.py:103-165", "lib/fbuild/builders/c/gcc/__init__.py:360-405"]}
{"id": "C104", "title": "A temporary file has the text that was given, whatever its indentation in the script", "statement": "Inside `with tempfile(src, suffix, name)` (and the tests of builders that use it) there is a file with that name and suffix in a directory that did not exist before; it holds the lines of src without the indentation that all lines that are not blank have in common, with blank lines made empty, and a newline at the end. Indenting src differently as a whole does not change the file.", "quantifier": "every text with any mix of spaces, tabs and blank lines, every name without a slash, every state of the disk", "why_tests_cant": "The texts are unbounded; the loop over the lines has four cases that depend on the order of the lines.", "anchors": ["lib/fbuild/temp.py:21-53", "lib/fbuild/builders/__init__.py:168-183"]}
{"id": "C105", "title": "Temporary directories are removed", "statement": "When a block of `with tempfile(...)` ends, by returning or by raising, its directory and everything in it is removed, as the docstring says.", "quantifier": "every block, every state of the disk, every argument", "why_tests_cant": "Whether something is left depends on what the block does and how it ends.", "anchors": ["lib/fbuild/temp.py:21-53"]}
{"id": "C106", "title": "The digest of a function is that of its definition", "statement": "Whether a cached function that is defined with def has changed is decided from the text of its definition: its decorators, its first line and its whole body, with the comments in it. Between two versions of a script this text changes if and only if a line of the definition was changed, added or removed; moving the definition or editing what is around it makes no difference.", "quantifier": "every definition with any decorators, nested blocks, comments, blank lines and statements over several lines, at any place of any file", "why_tests_cant": "The grammar of definitions is unbounded; a text that ends too early shows only as a stale result after an edit of the part that is missing.", "anchors": ["lib/fbuild/inspect.py:44-85", "lib/fbuild/db/database.py:278-291"]}
{"id": "C107", "title": "The digest of a lambda is that of its statement", "statement": "Whether a cached lambda has changed is decided from the text of the lines of its statement, from the one in which lambda is on.", "quantifier": "every statement with a lambda, over any number of lines", "why_tests_cant": "A text that ends too early shows only as a stale result after an edit of the part that is missing.", "anchors": ["lib/fbuild/inspect.py:44-85", "lib/fbuild/db/database.py:278-291"]}
{"id": "C108", "title": "A target name runs the function that was registered under it", "statement": "fbuild build and fbuild configure run the functions of these names in the build script. Any other name runs the function that was registered under it last, a name that nothing registers is an error, and the help text lists every target once, in order, with its own help.", "quantifier": "every sequence of uses of the decorator, every build script, every name", "why_tests_cant": "Names and order of registrations are unbounded.", "anchors": ["lib/fbuild/target.py:1-52", "lib/fbuild/main.py:138-143"]}
{"id": "C109", "title": "compile of Java returns the files that the compiler wrote", "statement": "The files that compile returns are those that the compiler reports as written, in this order, whatever else it prints.", "quantifier": "every output of javac or scalac, with any number of lines of any kind", "why_tests_cant": "The regular expression has optional parts; which paths it cuts off is not visible in a sample.", "anchors": ["lib/fbuild/builders/java.py:237-280"]}
{"id": "C110", "title": "run_class searches all class paths", "statement": "A class is run with the class paths of the object and those of the call, all of them and in this order.", "quantifier": "all lists of class paths", "why_tests_cant": "Lists of paths are unbounded.", "anchors": ["lib/fbuild/builders/java.py:86-92"]}
{"id": "C111", "title": "The Java compiler searches all class paths", "statement": "The compiler looks for classes in all class paths of the object and of the call.", "quantifier": "all lists of class paths, source paths, flags and sources", "why_tests_cant": "Lists of paths are unbounded; a test with one class path passes.", "anchors": ["lib/fbuild/builders/java.py:145-181"]}
{"id": "C112", "title": "Checks of a C compiler find exactly what compiles", "statement": "check_statements, check_functions_exist and check_macros_exist return the names for which the compiler accepts the program with the headers and the statement, each once, and check_header_exists says whether it accepts a program with the header. Only an exception other than a failed compilation is passed on.", "quantifier": "every compiler, all headers, names and statements", "why_tests_cant": "The compiler is arbitrary and lists are unbounded.", "anchors": ["lib/fbuild/builders/c/__init__.py:194-241", "lib/fbuild/builders/__init__.py:177-183"]}
{"id": "C113", "title": "check_types_exist finds exactly the types that exist", "statement": "check_types_exist returns the names of the types of which the compiler lets a variable be declared.", "quantifier": "every compiler, all headers and names of types", "why_tests_cant": "A name of two characters is taken for a pair, which tests with longer names do not show.", "anchors": ["lib/fbuild/builders/c/__init__.py:243-253"]}
{"id": "C114", "title": "build_exe and build_lib: threads make no difference", "statement": "When build_objects compiles the sources in several threads (scheduler.map), a build that succeeds returns what running all tools one after the other returns and leaves the same files, in whatever order the threads make their steps, whatever was built before and whatever was edited since. Later builds are right too.", "quantifier": "every project, every history of builds and edits, every interleaving of the threads, with tasks executed by the waiting thread or by others", "why_tests_cant": "The interleavings and the histories are unbounded; a race needs a particular schedule.", "anchors": ["lib/fbuild/builders/__init__.py:140-165", "lib/fbuild/builders/__init__.py:209-214", "lib/fbuild/builders/__init__.py:282-287", "lib/fbuild/db/database.py: Database.call", "lib/fbuild/sched.py: Scheduler.map"]}
{"id": "C115", "title": "Installing through the privileged helper does what installing directly does", "statement": "When files are installed by a helper process that runs as another user, a run that returns has installed exactly what a direct installation started in the same working directory would have, in the same order. A run in which something fails, or in which the helper is ended from outside or is not authorized, ends with the nonzero status of the helper. The two processes never wait for each other for ever.", "quantifier": "all lists of files to install, all file systems, every interleaving of the two processes, the helper ended at any moment", "why_tests_cant": "The interleavings and the moment at which the helper ends are unbounded, and tests do not run as two users.", "anchors": ["lib/fbuild/install.py:36-103", "lib/fbuild/install.py:148-178"]}
{"id": "C116", "title": "The OCaml compilers are given the options of the builder and of the call", "statement": "The command that is run names the libraries and the sources in the order given, and has the include directories, packages, syntaxes, C libraries, preprocessor, pack, flags and flags for debugging, optimization and profiling of the builder and of the call, whether the file is an interface or an implementation. The same holds for linking and for ocamldep.", "quantifier": "all builders and arguments, all sets of options with an argument that the compiler may know", "why_tests_cant": "The combinations of options are unbounded; how a word is read depends on the words before it.", "anchors": ["lib/fbuild/builders/ocaml/__init__.py:264-465", "lib/fbuild/builders/ocaml/__init__.py:692-790", "lib/fbuild/builders/ocaml/ocamlfind.py:13-129"]}
{"id": "C117", "title": "ghc is given the options of the builder and of the call", "statement": "ghc reads the options of the builder and then those of the call, with their arguments, and the destination, the directories for objects and interfaces, and the sources.", "quantifier": "all flags, paths and sets of options with an argument that ghc may know", "why_tests_cant": "Combinations of flags are unbounded; tests use one or two flags and never repeat one.", "anchors": ["lib/fbuild/builders/ghc.py:25-51", "lib/fbuild/builders/ghc.py:95-140"]}
{"id": "C118", "title": "bison is given the options of the object and of the call", "statement": "bison reads verbose, prefix and defines as asked for, the flags of the object and of the call in this order, the destination that is returned, and the source.", "quantifier": "all flags, paths and sets of options with an argument that bison may know", "why_tests_cant": "Combinations of flags are unbounded.", "anchors": ["lib/fbuild/builders/bison.py:17-47"]}
{"id": "C119", "title": "llc and llvm-as are given the options of the object and of the call", "statement": "llc and llvm-as read the flags of the object and of the call, the destination and the sources.", "quantifier": "all flags, paths and sets of options with an argument that the tools may know", "why_tests_cant": "Combinations of flags are unbounded.", "anchors": ["lib/fbuild/builders/llvm.py:121-148", "lib/fbuild/builders/llvm.py:173-188"]}
{"id": "C120", "title": "flx is given the options of the builder and of the call", "statement": "flx is called with the include directories of the builder, of the call and that of the source, if they exist, with debugging and static as asked for, and with each flag of the builder and of the call once.", "quantifier": "all builders, sources, include directories and flags", "why_tests_cant": "Combinations of flags are unbounded.", "anchors": ["lib/fbuild/builders/felix.py:28-57", "lib/fbuild/builders/felix.py:87-153"]}
{"id": "C121", "title": "pkg-config: the flags that are returned are those that are printed", "statement": "cflags and libs return the list of the flags that pkg-config prints.", "quantifier": "all outputs", "why_tests_cant": "Outputs are arbitrary texts: no flags, several blanks, blanks in paths.", "anchors": ["lib/fbuild/builders/pkg_config.py:19-38"]}
{"id": "C122", "title": "The items of a record are its attributes", "statement": "After any sequence of assignments and deletions, as items or as attributes, an attribute of a record is the value stored last.", "quantifier": "all records, names and sequences of operations", "why_tests_cant": "Sequences of operations and names are unbounded.", "anchors": ["lib/fbuild/record.py:1-13"]}
{"id": "C123", "title": "After a build was killed, the next build is right", "statement": "If a process is killed at any moment of a build, the next build returns the same results and leaves the same files as a build in which every call runs its function; if necessary after functions and files have been deleted from the database with --delete-function and --delete-file.", "quantifier": "all well-behaved scripts, all earlier lives of the build directory, all moments at which the process is killed, all deletions after which no call is answered whose files the killed process wrote", "why_tests_cant": "A process can be killed between any two of its actions, in any state of the build directory.", "anchors": ["lib/fbuild/db/pickle_backend.py:39-75", "lib/fbuild/db/database.py:90-207", "lib/fbuild/main.py:88-99", "lib/fbuild/main.py:193-214"]}
{"id": "C124", "title": "A cached method with platform options declares the files that it is given", "statement": "When build_objects, link_lib or link_exe is called with platform_options, the sources and destinations that are recorded are those that the method is given after the options were applied, and the result is stored under the arguments under which it was looked up.", "quantifier": "all signatures, annotations, arguments, platform options and platforms", "why_tests_cant": "The result depends on which options match, on which objects are shared between arguments and options, and on the order in which decorators and database see the arguments.", "anchors": ["lib/fbuild/builders/platform.py:187-253", "lib/fbuild/functools.py:9-35", "lib/fbuild/db/database.py:66-109", "lib/fbuild/db/database.py:293-311", "lib/fbuild/builders/__init__.py:140-160", "lib/fbuild/builders/__init__.py:198-204", "lib/fbuild/builders/__init__.py:270-276"]}
{"id": "C125", "title": "The digest of a file is the hash of all of its contents", "statement": "Path.digest returns the md5 of the whole contents of the file, whatever the chunksize. Two files get equal digests just if the hashes of their contents are equal.", "quantifier": "all contents, all chunk sizes other than 0, all hash functions whose update can be called piece by piece", "why_tests_cant": "Contents are unbounded, and a wrong loop is only seen for lengths at the border of a chunk.", "anchors": ["lib/fbuild/path.py:295-304"]}
{"id": "C126", "title": "Path.globall returns what the patterns pick and exclude does not match", "statement": "Path.globall(*patterns, exclude=...) returns the existing paths that one of the patterns picks, also one in a list of patterns, and that no pattern of exclude matches, in the order of the patterns.", "quantifier": "all trees of files, all patterns, nested in any way, and all patterns to exclude", "why_tests_cant": "Trees, patterns and their nesting are unbounded.", "anchors": ["lib/fbuild/path.py:233-246", "lib/fbuild/path.py:518-536", "lib/fbuild/glob.py:22-75", "lib/fbuild/fnmatch.py:20-42"]}
{"id": "C127", "title": "Path.find finds each file below a directory whose name matches", "statement": "Path.find(pattern, include_dirs) yields the path of every file below the directory, and of every directory if these are included, whose own name matches the pattern: nothing else, and nothing twice. Where there is no directory it yields nothing.", "quantifier": "all trees of files, all patterns and both values of include_dirs", "why_tests_cant": "Trees are unbounded in depth and width.", "anchors": ["lib/fbuild/path.py:188-199"]}
{"id": "C128", "title": "The command of the Microsoft compiler has the options of the builder and of the call", "statement": "Each source is compiled by the program that was asked for with the flags, include directories, macros and warnings of the builder and of the call: flags in the order given, include directories in the order given, a macro of the call in place of one of the builder.", "quantifier": "all builders, options, sources and calls", "why_tests_cant": "Options are combined from four places, made into sets and sorted; the combinations are unbounded.", "anchors": ["lib/fbuild/builders/c/msvc.py:14-158", "lib/fbuild/builders/c/msvc.py:422-475", "lib/fbuild/builders/c/msvc.py:504-599"]}
{"id": "C129", "title": "Each argument of the builders for gcc reaches the commands that it is for", "statement": "A builder made by static or shared uses the programs that were asked for. flags reach every compilation and link, compile_flags every compilation, link_flags every link, lib_link_flags and exe_link_flags those of libraries and executables, in this order. Files get the prefixes and suffixes that were given, else those of the platform.", "quantifier": "all arguments of static and shared, all calls of the builder", "why_tests_cant": "The arguments pass through four objects each of which adds to them; their combinations are unbounded.", "anchors": ["lib/fbuild/builders/c/gcc/__init__.py:16-97", "lib/fbuild/builders/c/gcc/__init__.py:340-417", "lib/fbuild/builders/c/gcc/__init__.py:499-601"]}
{"id": "C130", "title": "The terminal shows the messages of the level that was asked for", "statement": "The log file gets every message. The terminal gets those of the level that was asked for with -v, in the same order and whole, each in one colour at most and in none with --no-color. With a higher level nothing is lost. A check and its result are one line at the level of the check, and the colons of the checks are in one column as long as the texts fit.", "quantifier": "all sequences of calls of the logger, all messages, colours and levels, with one job", "why_tests_cant": "Sequences of messages are unbounded, and the column depends on all checks before.", "anchors": ["lib/fbuild/console.py:69-94", "lib/fbuild/console.py:104-192"]}
{"id": "C131", "title": "guess_platform tells what kind of system this is", "statement": "guess_platform returns the names of the system and of everything it is a kind of, whatever the case of the name and the blanks around it, from uname or else from Python; for a system it does not know it raises UnknownPlatform.", "quantifier": "all names of systems, all outputs of uname, all systems", "why_tests_cant": "The outputs of uname are those of systems on which the tests are not run.", "anchors": ["lib/fbuild/builders/platform.py:10-99"]}
{"id": "C132", "title": "C programs and libraries built with gcc are what the commands make of the files that are there", "statement": "After build_exe or build_lib of a gcc builder has succeeded, each object file is what the compiler makes, with the command for its source, of the sources and headers that are there now, and the executable or library is what the linker makes of these objects and libraries: all files are as if every command had been run. If every command would succeed, the build succeeds. After a script that builds several targets all of them are so, in particular executables that are linked with libraries of the same script.", "quantifier": "all projects, all histories of builds and edits, all orders of the threads, all behaviours of the compiler and linker", "why_tests_cant": "The histories, the include graphs and the schedules are unbounded; it takes names of files, command lines, dependency files, the database and the threads together.", "anchors": ["lib/fbuild/builders/__init__.py:140-165", "lib/fbuild/builders/__init__.py:197-214", "lib/fbuild/builders/__init__.py:269-287", "lib/fbuild/builders/c/gcc/__init__.py:359-412", "lib/fbuild/builders/c/gcc/__init__.py:438-464"]}
{"id": "C133", "title": "With the sqlite engine editing a cached function re-runs the cached functions that call it", "statement": "If cached function f called cached function g during its last stored execution and the source of g has changed since, the next call of f does not return the stored value; also after failed stores, restarts and killed processes.", "quantifier": "all histories of calls, edits, failed stores, restarts and killed processes", "why_tests_cant": "The result depends on which caller of g runs first after the edit and on what the database rolled back.", "anchors": ["lib/fbuild/db/backend.py:100-109", "lib/fbuild/db/backend.py:119-143", "lib/fbuild/db/sqlite_backend.py:141-220"]}
{"id": "C134", "title": "The database engine makes no difference", "statement": "The engines cache, pickle and sqlite answer the same calls, edits, restarts and deletions in the same way: a call returns the same stored result, runs its function, or raises the same exception, whichever engine was chosen.", "quantifier": "all histories of calls of several threads, edits, restarts and deletions from the command line", "why_tests_cant": "Two implementations with different tables are compared over unbounded histories.", "anchors": ["lib/fbuild/db/cache_backend.py:33-362", "lib/fbuild/db/sqlite_backend.py:135-529", "lib/fbuild/db/backend.py:47-143"]}
{"id": "C135", "title": "The command line means what its options say", "statement": "Options may be written in every documented form (long, abbreviated, with the argument after a space or =, letters joined in one word), in any order and around the targets. Each option has the value of its last use, -v adds up, an option that is not used has its default, and the targets are the ones given, or build. After -- everything is a target. An unknown option is refused. This also holds with the options that the script adds.", "quantifier": "all tables of options with different names, all command lines", "why_tests_cant": "Command lines are unbounded sequences, and the options that a script adds can make abbreviations ambiguous.", "anchors": ["lib/fbuild/options.py:80-133", "lib/fbuild/main.py:52-71"]}
{"id": "C136", "title": "The settings of a build follow from the command line", "statement": "The build directory, the engine, the state file, the log file, the colours and whether the old state is dropped are what the last use of each option says, or the documented default: the state file is in the build directory unless its name is absolute, and is named after the engine unless --state-file was given. --no-warnings turns the warnings off.", "quantifier": "all tables of options with those of fbuild among them, all command lines", "why_tests_cant": "The settings depend on combinations of options of unbounded command lines.", "anchors": ["lib/fbuild/context.py:21-61", "lib/fbuild/context.py:81-88", "lib/fbuild/main.py:147-149"]}
{"id": "C137", "title": "An option made with optparse means the same to the parser of fbuild", "statement": "add_option and add_options take an optparse.Option and add an argument with the same names and the same destination; however often the option is used and with whatever arguments, it gets the value that optparse gives it, and arguments that optparse refuses are refused.", "quantifier": "all options that optparse.Option accepts (names, actions, types, numbers of arguments, choices, defaults, constants), all sequences of uses, all lists of options", "why_tests_cant": "Old build scripts define options of their own, so the options and the command lines are not known in advance.", "anchors": ["lib/fbuild/options.py:9-78"]}
{"id": "C138", "title": "Running a Scala script does not touch the sources", "statement": "The scala builder runs a script from a copy in the build directory. Files outside of the build directory stay as they are, what is compiled is the current content of the script, and the path that the call returns is the archive that scala has saved.", "quantifier": "all scripts, build directories, options, states of the files, and all programs that behave like scala -savecompiled", "why_tests_cant": "Where things are written depends on how the paths of script and build directory relate.", "anchors": ["lib/fbuild/builders/scala.py:21-58", "lib/fbuild/builders/java.py:146-181"]}
{"id": "C139", "title": "Compiling Java and Scala writes to the build directory and shows the messages", "statement": "compile runs the compiler on the source with the options of the builder and of the call, where those of the call count, and lets it write to the destination, or the directory of the source, below the buildroot (that of the call if there is one). The messages of the compiler are logged whether it succeeds or fails, without the lines of its verbose output.", "quantifier": "all compilers, options, sources, destinations and buildroots, all outputs of the compiler", "why_tests_cant": "Options of two places are combined, and outputs are unbounded texts.", "anchors": ["lib/fbuild/builders/java.py:146-181", "lib/fbuild/builders/java.py:215-280", "lib/fbuild/builders/scala.py:21-30", "lib/fbuild/builders/scala.py:66-73"]}
{"id": "C140", "title": "A C builder that was made works", "statement": "Making a builder for C or C++ succeeds exactly if its tools can make objects, libraries, programs and programs that use a library, and, unless it is a cross compiler, these run and give the right result. Otherwise ConfigFailed is raised, so that the next compiler is tried. The checks of a script (try_compile, try_link_lib, try_link_exe, try_run) answer the same questions for its programs, and the OpenMP flags are the first that work.", "quantifier": "all compilers and linkers (functions from flags and texts to results or errors), all programs", "why_tests_cant": "The tools of other machines cannot be enumerated; each combination of failures has to be handled.", "anchors": ["lib/fbuild/builders/c/__init__.py:29-121", "lib/fbuild/builders/__init__.py:172-326", "lib/fbuild/builders/c/openmp.py:7-44"]}
{"id": "C141", "title": "What configuration tests return compares by value", "statement": "Two results of tests for functions, macros, types, structs and variables are equal exactly if they are of the same kind and describe the same; equal ones have the same hash, and each can be written by repr.", "quantifier": "all results of tests, all return types, parameters and members, functions of functions included", "why_tests_cant": "Types are nested without a bound, and every pair of results may be compared.", "anchors": ["lib/fbuild/config/c/__init__.py:9-126"]}
{"id": "C142", "title": "Programs of configuration tests use what they test as it was described", "statement": "The program that function_test compiles includes the header, declares a variable for every parameter that is not void, with its type and different names, and calls the function with these in order, keeping the result unless it is void; with default_args it calls the function with these. That of struct_test reads every member into a variable of its type, and that of variable_test uses the variable. They do nothing else.", "quantifier": "all headers, names, types, lists of parameters and members", "why_tests_cant": "Descriptions of headers are written by users, with any number of parameters and members.", "anchors": ["lib/fbuild/config/c/__init__.py:285-335", "lib/fbuild/config/c/__init__.py:469-486", "lib/fbuild/config/c/__init__.py:513-525"]}
{"id": "C143", "title": "Tools of the wrong version are refused", "statement": "If a version is required of gcc, clang, icc, llvm-config, sdl-config, a package or an OCaml compiler then the tool is taken exactly if the version that it prints is the one, is at least or is at most the one that is required, and ConfigFailed is raised otherwise, so that the next tool can be tried.", "quantifier": "all outputs of the tools, all versions, all requirements", "why_tests_cant": "Versions and the texts around them differ from machine to machine.", "anchors": ["lib/fbuild/builders/__init__.py:73-122", "lib/fbuild/builders/c/gcc/__init__.py:312-316", "lib/fbuild/builders/c/clang/__init__.py:8-23", "lib/fbuild/builders/c/intel.py:8-14", "lib/fbuild/builders/llvm.py:24-31"]}
{"id": "C144", "title": "What was found out about the machine is true of it", "statement": "A program that find_program returns is, at that time, the first of the names that is a file by itself or in one of the directories, in the order of the names and then of the directories, and MissingProgram is raised if there is none; in the first build as in later ones.", "quantifier": "all names and directories, all files of the machine, all histories of builds and changes of files", "why_tests_cant": "Whether an answer is still true depends on everything that happened to the machine since the first build.", "anchors": ["lib/fbuild/builders/__init__.py:29-69", "lib/fbuild/db/database.py:97-207"]}
{"id": "C145", "title": "OCaml libraries and programs consist of what they are built from", "statement": "build_lib and build_exe of the OCaml builders make a library or program of the objects given and of all sources that are not interfaces, each once and in the order of their dependencies, and a program also of the libraries; with pack the objects and sources are in one module. The builder Ocaml does so for bytecode and for native code and returns the pair; each of its compilers is given files of its kind. What compile and build_objects return can be linked.", "quantifier": "all sources, objects and libraries, all compilers that do what those of OCaml do", "why_tests_cant": "The number of files and the ways of combining them are unbounded.", "anchors": ["lib/fbuild/builders/ocaml/__init__.py:412-628", "lib/fbuild/builders/ocaml/__init__.py:824-969"]}
{"id": "C146", "title": "Stored values come back with the context of the process, and bad ones do no harm", "statement": "What is read from the database equals what was stored, with the context of the reading process in place of that of the writing one, however deep it is in objects and containers. A value that cannot be pickled affects only its own call: all others are stored. If the class of a stored object no longer exists then such results are forgotten and the build goes on.", "quantifier": "all values: containers, objects with attributes, contexts, values that cannot be pickled; all sets of classes that exist", "why_tests_cant": "Values are nested without a bound, and which classes exist changes with the edits of the scripts.", "anchors": ["lib/fbuild/db/backend.py:334-373", "lib/fbuild/db/pickle_backend.py:12-73", "lib/fbuild/db/sqlite_backend.py:223-326"]}
{"id": "C147", "title": "At the end of its time a command is killed with what it started, and nothing else is", "statement": "When the time limit of Context.execute is over, every running process is killed that the command started, or that was started by such a process, unless it left the process group of the command; from then on none of them is running, and every process that the command did not start is left as it is.", "quantifier": "all processes of the machine, all orders in which they start others, end, are waited for and change groups and sessions, and in which the threads of execute and of the timer go on", "why_tests_cant": "Which numbers processes get and when the timer runs between the steps of other processes cannot be arranged in a test.", "anchors": ["lib/fbuild/context.py:183-227", "lib/fbuild/subprocess/killableprocess.py:96-111", "lib/fbuild/subprocess/killableprocess.py:187-206"]}
{"id": "C148", "title": "Paths that are put together and taken apart lead where they should", "statement": "a / b leads to what b leads to from a, or to what b leads to if b is absolute; the name of a path in its parent is the file that the path leads to, and of a directory and a name in it parent and name give them back; splitext loses nothing and splits off at most one extension of the last name, which is not its beginning; the files that the linkers make are in the directory that was asked for with the prefix, the name and the suffix as their name.", "quantifier": "all texts as paths, all file systems, with links and ..", "why_tests_cant": "Paths come from scripts and from the machine, with any number of slashes, dots and parts.", "anchors": ["lib/fbuild/path.py:30-97", "lib/fbuild/path.py:395-443", "lib/fbuild/builders/c/gcc/__init__.py:65", "lib/fbuild/builders/c/msvc.py:334-339"]}
{"id": "C149", "title": "An OCaml object is compiled again whenever it would be another one", "statement": "If compiling an OCaml file anew, after everything that it needs, would give another object than the last time then the file itself or one of the files that its compilation reported to the database has changed. The compilation reports all files that it writes; linking native code reports the objects and archives beside its arguments, and the archive beside a library that it makes.", "quantifier": "all texts of the files, all directories, all compilers that read only the compiled forms of dependencies", "why_tests_cant": "Which changes alter an object depends on the compiler and on dependencies of any depth.", "anchors": ["lib/fbuild/builders/ocaml/__init__.py:346-364", "lib/fbuild/builders/ocaml/__init__.py:398-407", "lib/fbuild/builders/ocaml/__init__.py:794-820"]}
{"id": "C150", "title": "What the tools of Visual C say reaches the user, and their results are those of the calls", "statement": "When the compiler or a linker of Visual C is run through the builder the user sees, from the level of messages on that was asked for, every line that it prints once and in order, but not the notes about headers, the name of the source and the names of the other files of a shared library; also if it fails. The call raises ExecutionError exactly if the tool fails.", "quantifier": "all outputs of the tools, all levels of messages, all exit codes", "why_tests_cant": "The output of the tools is not known in advance, and the tools run on one system only.", "anchors": ["lib/fbuild/builders/c/msvc.py:220-225", "lib/fbuild/builders/c/msvc.py:345-397", "lib/fbuild/builders/c/msvc.py:420-476", "lib/fbuild/context.py:217-242"]}
{"id": "C151", "title": "A compiler that was made accepts the options it was given", "statement": "Gcc(...) succeeds exactly if the compiler accepts its flags and those for debugging, profiling and optimizing that it is made with, each beside all other options, and has a version that was asked for; otherwise ConfigFailed is raised, so that another one can be tried. A compiler that was made accepts every call without flags and one with debug, profile or optimize. A Compiler or Linker with flags of its own is made exactly if these are accepted.", "quantifier": "all options, all libraries, all compilers: any answer to any command", "why_tests_cant": "Which options a compiler accepts, also together, depends on the compiler.", "anchors": ["lib/fbuild/builders/c/gcc/__init__.py:105-165", "lib/fbuild/builders/c/gcc/__init__.py:318-335", "lib/fbuild/builders/c/gcc/__init__.py:348-358", "lib/fbuild/builders/c/gcc/__init__.py:385-395"]}
{"id": "C152", "title": "Waiting with a limit gives the status of what ends in time and kills the rest", "statement": "Popen.wait and call of fbuild.subprocess.killableprocess with a timeout return the exit status of a process that ends within it, soon after its end and without killing anything; if the process is still running then it and its group are killed, not earlier, and -9 is returned soon after. Without a timeout the status is returned when the process has ended. check_call returns if the status is 0, and raises an error with the status otherwise.", "quantifier": "all times at which the process ends, all limits, all times that the looks at the clock and at the process take", "why_tests_cant": "Times and the moments of signals between two steps cannot be arranged in a test.", "anchors": ["lib/fbuild/subprocess/killableprocess.py:74-94", "lib/fbuild/subprocess/killableprocess.py:187-259"]}
{"id": "C153", "title": "regex_substitute applies its patterns one after the other", "statement": "regex_substitute writes to the destination the text of the source after all patterns were applied with re.sub, each to what came of those before it, with its own flags or else those for many lines, and changes no other file. If an element has neither two nor three parts, or re.sub raises, then it raises and changes no file. Text that no pattern matches is unchanged.", "quantifier": "every text, every list of patterns; re.sub is an arbitrary function that may raise", "why_tests_cant": "Texts and lists of patterns are unbounded.", "anchors": ["lib/fbuild/builders/text.py:35-63"]}
{"id": "C154", "title": "A result of a test is found by its name", "statement": "get of a configuration test with names and dots between them returns the object that these attributes lead to, one after the other, and the default just if one of them does not exist.", "quantifier": "every object with attributes of any depth, every list of names, every default", "why_tests_cant": "The depth of the attributes is unbounded.", "anchors": ["lib/fbuild/config/__init__.py:71-82"]}
{"id": "C155", "title": "The hooks of a script see and change the parser and the arguments", "statement": "arguments of the script is called once with the parser of fbuild before the arguments are parsed, and post_arguments once with the parser and the arguments after it; if there is none then pre_options or post_options are called instead, after a warning. What a hook returns, unless it is nothing, is used from then on. What a hook raises, also AttributeError, ends fbuild, and nothing is called after it. That a script cannot be imported is reported.", "quantifier": "every script: any set of hooks with any results and exceptions; every parser and arguments", "why_tests_cant": "Scripts are programs of the users.", "anchors": ["lib/fbuild/main.py:18-72", "lib/fbuild/main.py:152-179"]}
{"id": "C156", "title": "A build begins with its directories, an empty log and an empty temporary directory", "statement": "Before the targets are run the build directory, the directory of the state file and the temporary directory exist, the log file is empty and nothing is in the temporary directory; no other file is changed or removed. This succeeds unless a file is where a directory has to be or a directory is where the log has to be.", "quantifier": "every tree of files and directories, every build directory, log file and state file", "why_tests_cant": "What is on the disk from before, and the paths that the user gives, are unbounded.", "anchors": ["lib/fbuild/context.py:36-42", "lib/fbuild/context.py:60-79", "lib/fbuild/context.py:104-105", "lib/fbuild/path.py:282-307"]}
{"id": "C157", "title": "Libraries and programs have the names that the tools of the platform expect", "statement": "For the platform that is given, or that of the system if none or an empty one is given, the file of a library or program is called as is usual there: libN.a, libN.so and N on Unix, libN.dylib on Mac OS, N.lib, N.dll and N.exe on Windows, libN.a, N.dll and N.exe with MinGW; the linker that is asked for the library N looks for this file. The directories of libraries are given to a command in the variable that the system looks at when it starts a program.", "quantifier": "every system and platform that fbuild knows, every target and build directory", "why_tests_cant": "Tests run on one system; the names on others are never tried there.", "anchors": ["lib/fbuild/builders/platform.py:103-176", "lib/fbuild/context.py:146-160"]}
{"id": "C158", "title": "Generated lexers and parsers are those of their sources", "statement": "Ocamllex and Ocamlyacc return files in the build directory that contain the lexer, or the parser and its interface, for the source, made with the flags of the object and of the call; no other file is changed except a copy of the source in the build directory, and the source stays as it is. If the tool fails or there is no source the call fails. Different sources have different generated files.", "quantifier": "every source file, every build directory, every list of flags that does not rename the output, every contents of the disk", "why_tests_cant": "Paths and contents are unbounded; two sources with the same generated file show only when both are in one project.", "anchors": ["lib/fbuild/builders/ocaml/__init__.py:973-1048", "lib/fbuild/path.py:113-129", "lib/fbuild/path.py:364-370"]}
{"id": "C159", "title": "OCaml compilers that were made work", "statement": "Ocamlc, Ocamlopt and Ocaml are made exactly if the programs for them are found, have the version that is required, and compile, link and run the programs of the checks; otherwise ConfigFailed is raised. Programs that are not needed need not be there. The compilers of one builder use the same ocamldep, and its interfaces are compiled by a bytecode compiler of the required version.", "quantifier": "every set of installed programs with any version and any behaviour, every requirement, every program given by name", "why_tests_cant": "A test suite runs with one installation in which all programs are there and work.", "anchors": ["lib/fbuild/builders/ocaml/__init__.py:25-31", "lib/fbuild/builders/ocaml/__init__.py:159-249", "lib/fbuild/builders/ocaml/__init__.py:675-737", "lib/fbuild/builders/ocaml/__init__.py:827-862"]}
{"id": "C160", "title": "Configuration tools are asked for what the method says", "statement": "Each method of LlvmConfig and SDLConfig, and modversion of PkgConfig, returns what the installed program says about what the method is named and documented for, without the blanks around it, whatever was asked before and also after another version of the program was installed.", "quantifier": "every program that prints what its manual says, every installation, every list of components, every sequence of calls", "why_tests_cant": "A test sees one installation, in which the source and object directories are often the same, and does not upgrade it between two builds.", "anchors": ["lib/fbuild/builders/llvm.py:9-108", "lib/fbuild/builders/sdl.py:9-54", "lib/fbuild/builders/pkg_config.py:9-50"]}
{"id": "C161", "title": "Visual C builders link what they are asked to", "statement": "The linkers of a builder made by static or shared of msvc run lib or link with the flags given for them and for the call, in that order; the program reads exactly the objects and libraries named by the call and writes the file that is returned; its name is the one asked for with the prefix and suffix that were given, or those of the platform; the libraries a static library needs get to lib; the program given as exe is used.", "quantifier": "all options of static and shared, all flags, objects, destinations and build directories", "why_tests_cant": "Tests run on the platform they are made for, with the default names and a handful of flags; what is dropped is seen only when a later link fails.", "anchors": ["lib/fbuild/builders/c/msvc.py:165-229", "lib/fbuild/builders/c/msvc.py:334-398", "lib/fbuild/builders/c/msvc.py:504-599"]}
{"id": "C162", "title": "Tests for headers and macros find exactly what the compiler has", "statement": "In a configuration test, a header_test is the name of the header exactly if a program can include the header first, and None otherwise; a macro_test is a Macro exactly if the macro is defined behind the header of the class of tests, or by the compiler if the class has none, and None otherwise.", "quantifier": "every compiler that follows the rules of the C preprocessor for the lines of these programs, all headers that depend on each other in any way, all names", "why_tests_cant": "A test asks one compiler for a few macros; a program that tests the wrong thing gives the right answer for most of them.", "anchors": ["lib/fbuild/config/c/__init__.py:165-206", "lib/fbuild/config/c/__init__.py:232-260", "lib/fbuild/config/c/__init__.py:361-387"]}
{"id": "C163", "title": "Tests for types measure the alignment, the size and the sign of the type", "statement": "In a configuration test, a type_test is a Type with the alignment and the size that the compiler gives the type, an int_type_test also tells whether the type has negative numbers, and both are None if the compiler does not know the type behind the header of the class of tests.", "quantifier": "every compiler that follows the rules of C for the lines of these programs: all sets of types, sizes, alignments and signs, all headers and names", "why_tests_cant": "A test measures the types of one machine; a program that prints the size twice, or an offset that is not the alignment, is right there for most types.", "anchors": ["lib/fbuild/config/c/__init__.py:391-418", "lib/fbuild/config/c/__init__.py:420-450"]}
{"id": "C164", "title": "Compilers of Visual C, Haskell, Java, Scala and Felix that were made accept their options", "statement": "A compiler object of cl, ghc, javac, scala or flx is made exactly if the program accepts the calls that it will get: without further options, and with those for debugging or optimizing. One that does not is refused with ConfigFailed, so that another one can be tried.", "quantifier": "every program that takes or refuses a command for its words, all flags, includes, macros and paths of the objects", "why_tests_cant": "A test has a compiler that accepts everything; that another one is refused for flags that nobody asks for, or accepted although it does not work, shows on other machines.", "anchors": ["lib/fbuild/builders/c/msvc.py:38-45", "lib/fbuild/builders/c/msvc.py:105-139", "lib/fbuild/builders/ghc.py:16-72", "lib/fbuild/builders/felix.py:15-76", "lib/fbuild/builders/java.py:121-204", "lib/fbuild/builders/scala.py:8-30"]}
{"id": "C165", "title": "The home directory of Java is read from what Java prints", "statement": "Java.get_java_home returns the home directory of the Java that runs, as its verbose output names it, and None if the output does not name it.", "quantifier": "all outputs: any lines before and behind, both forms of line ends, all names of directories", "why_tests_cant": "A test runs the Java of one machine; whether the answer depends on other lines, on the name of the directory or on the version shows elsewhere.", "anchors": ["lib/fbuild/builders/java.py:77-78", "lib/fbuild/builders/java.py:100-113"]}
{"id": "C166", "title": "Configuration tests are equal exactly if they test the same", "statement": "Two tests of a configuration compare equal exactly if they are of the same class and agree in all that they were made with, so that they run the same program and give the same answer; comparing never fails, and equal tests have the same hash.", "quantifier": "all tests of all classes: all names, types, parameters, members, programs, inputs, outputs and timeouts", "why_tests_cant": "A test compares a few tests; an attribute that is left out of the comparison shows only for two that differ in nothing else.", "anchors": ["lib/fbuild/config/c/__init__.py:208-228", "lib/fbuild/config/c/__init__.py:262-271", "lib/fbuild/config/c/__init__.py:344-357", "lib/fbuild/config/c/__init__.py:495-504", "lib/fbuild/config/cxx/__init__.py:40-67"]}
{"id": "C167", "title": "A function given by its dotted name is the function of that name", "statement": "fbuild.functools.call and import_function take the dotted name of a function in place of the function: what is called is exactly the function with that name in the module before the last dot, also if the module is in packages; other names end with ValueError, ImportError or AttributeError. import_module gives the module with the name, not the package it is in.", "quantifier": "all names, all sets of modules and of what they define", "why_tests_cant": "A test imports a few functions; that the package is taken for its module shows only where both define the name.", "anchors": ["lib/fbuild/functools.py:40-64"]}
{"id": "C168", "title": "linecount counts the lines of a file", "statement": "Path.linecount is the number of lines of the file: each end of a line counts once, whether it is that of POSIX, Windows or old systems, and text behind the last end is one more line.", "quantifier": "all contents: any lines, empty ones among them, each of the three forms of ends", "why_tests_cant": "A test counts the lines of a few files; an empty file, a last line without an end or other ends of lines are where counting goes wrong.", "anchors": ["lib/fbuild/path.py:266-273"]}
