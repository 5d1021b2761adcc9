# Formal model of fbuild in Lean 4

Subject: felix-lang/fbuild, python sources in `/repo/lib/fbuild`. The code is read as text;
nothing is executed. `properties.jsonl` lists the properties (C01, ...), `MANIFEST.json` gives
the theorems for each, `AXIOMS.txt` the axioms each of these theorems depends on,
`seeded/LOG.jsonl` the wrong programs the theorems were tried against.

Where the code does not have a property, the negation is proved for a concrete history or
input (names ending in `_violated`), and what does hold is proved under a name ending in
`_partial`; the hypotheses of that theorem say what is missing.

## Trusted base

* Lean's kernel, and the axioms `propext`, `Classical.choice`, `Quot.sound` (`AXIOMS.txt` has the
  list per theorem). No axioms of our own, no `sorry`, no `native_decide` or `bv_decide`.
* That the definitions follow the Python text. Every definition cites file and lines, and says
  where it simplifies.
* Python itself, the operating system calls, the standard library: pickle (a value read back equals
  the value written), md5 (theorems about file contents compare digests, or assume that equal
  digests mean equal contents where they say so), sqlite's statements, `posixpath`. For `re` the
  part that fnmatch and text need is modelled.
* Python values that compare equal are identified (the type `B` of bound arguments has decidable
  equality), except in `Alias/` and `Persist/`, which are about just that.
* A request executed by the RPC thread (`prepare`, `cache`) is atomic; `Rpc/` proves that requests
  are executed one at a time and in order.

## The models

All under `lean/Verif`. "Left out" says what a theorem cannot speak about.

* `Dict.lean`: Python dictionaries in insertion order. `Posix.lean`: `join`, `split`, `splitext`,
  `isabs` of `posixpath` on character lists.
* `DB/Backend.lean`: `db/backend.py`, generic in the storage operations, as the class is.
  `DB/CacheBackend.lean`: `cache_backend.py` (engines `cache` and `pickle`).
  `DB/SqliteBackend.lean`: `sqlite_backend.py`, tables as lists of rows with cascading deletions, row
  counters, commit and rollback.
  `DB/History.lean`: transition system of the events prepare, complete, fail, edit, tick, restart,
  crash, delete function, delete file; calls of several threads interleave freely.
  `DB/HistoryProofs.lean` has `Allowed`, the hypotheses under which histories are considered:
  the modification time of a file determines its content as far as it is relied upon (C13 is about
  what happens without this), and equal calls do not overlap (C23 is about that).
  `DB/SqliteHistory.lean` has `SAllowed`, the same for the sqlite engine, plus: a result is not stored
  if the storing of another result raised while its call was running (`C66_rollback_violated` shows
  why). Crashes are allowed; a crash goes back to the last commit.
  `DB/Engines.lean`, `DB/Engines2.lean`: a relation between the tables of the two engines that all
  operations preserve.
  `DB/SqliteVersion.lean`: connecting to and closing the file of the sqlite engine, with the states
  of the file in between; the other tables and committed changes of them are parameters.
  Left out: the existence check of destinations is part of the step `prepare`; declared files depend
  on name, digest and arguments of a function; Python's recursion limit is a parameter.
* `DB/Pickle.lean`: saving and loading the state file, with a crash after any operation.
* `Calls/Core.lean`: `Database.call` with nested calls, the call stack and external dependencies, as an
  interpreter of programs that call, report, read and write; one thread, arguments and results
  immutable; a written file gets the time of the clock. `Calls/Clean.lean`: the specification for C59,
  a build without a database, and what a well-behaved script is. `Calls/Threads.lean`: the same calls in small
  steps, by several threads that share the database and the call stack. `Calls/Incr.lean`, `Calls/Parallel.lean`:
  the invariants. `Calls/Alone.lean`: the small steps do what the interpreter does. `Calls/Group.lean`: a cached function that
  makes its calls in threads (`build_objects`) does what it does if it makes them one after the other. `Calls/Sqlite.lean`: the interpreter on the tables of the
  sqlite engine; `Calls/SqliteSame.lean`: it takes the same steps if no files are reported. `Calls/Killed.lean`: a process
  that is killed between two events (engine `pickle`), and deletions from the database after that. Left out: a task that waits
  in `map` may execute another task on top of its own frames (for `build_objects` this is modelled: the waiting thread's frame gets the
  reports of the tasks that it executes).
* `Alias/Core.lean`: the same table of calls with mutable argument and result objects on a heap. Files
  and digests are parameters.
* `Sched/`: `sched.py` as a transition system: main thread, workers, ready queue, locks, nested maps.
  Fairness is defined in `Sched/Fair.lean`. `interruptible` in the main thread outside of a task
  is a no-op in `Reach`; C30 and C34 treat it separately. Left out: `KeyboardInterrupt`.
* `Rpc/`: `rpc.py` as a transition system of the server thread and its clients.
* `Functools/`: `normalize_args`, `bind_args` against Python's binding rules. Left out:
  positional-only parameters, functions that are wrapped by decorators other than `auto_platform_options`.
  `Functools/Files.lean`: `_find_call_filenames` and the annotations.
* `Naming/`: names and digests of cached functions, methods and constructors
  (`_find_function_name`, `add_function_to_map`, `PersistentMeta.__init__`). Left out: functors. `Naming/Source.lean`: how the
  source text of a function is found, with `BlockFinder` of CPython 3.11; the tokenizer is a parameter. (From 3.11 on `from inspect import *` does
  not import `re`, so that `lib/fbuild/inspect.py` raises `NameError`; the other models are of what happens without that.)
* `Config/`: `config/__init__.py` (`TestMeta`, `fields`), `config/c/__init__.py` (descriptors, `__call__`,
  `functions()` and so on), `config/cxx/__init__.py` (namespaces); how descriptors are named and digested in the
  database. Left out: the texts of the generated programs, the shipped tests other than those named in witnesses.
* `Ocaml/`: `builders/ocaml`: `Ocamldep`, `scan`, which objects are linked in which order; `builders/nm.py`. Left
  out: configuration, `ocamllex` and `ocamlyacc`, bytes as opposed to characters. `Ocaml/Command.lean`: the command lines of
  the compilers and of `ocamldep`, with what `ocamlfind.py` adds; `Path(x)` is `x`.
* `Fnmatch/`: `fnmatch.py`; the text of the regular expression, a parser for the emitted subset, the
  matching relation. Left out: `bytes`, the cache of patterns.
* `Glob/`: `glob.py` over a tree. Left out: symbolic links, directories that cannot be read, `bytes`.
  Names have no newlines, patterns no reversed ranges (C38 says what happens there).
* `Path/`: `addroot`, `removeroot`, `replaceext(s)`, `addprefix`, `splitall` of `path.py`. `Path/Search.lean`: `digest`, `glob`,
  `globall` and `find`; the hash is a parameter. Left out: links, directories that cannot be read, changes during a call.
  `collections.Iterable` is taken to exist (it does up to Python 3.9).
* `Main/`: the decisions of `build` in `main.py`. `Install/`: `Context.install` and `install.py` on a
  file system with links and without intermediate directories. `Install/Remote.lean`: `PolkitCommander` and
  `polkit_process` as a transition system of two processes. Assumed: `_decode` inverts `_encode`, base64 gives one line, a helper that
  is ended from outside has a nonzero status. Left out: the environment of the helper (`env` is computed but not passed on).
* `Platform/`: `guess_platform`, `platform_match`, `parse_platform_options` with list objects on a heap. `Platform/Cached.lean`: cached methods that
  are decorated with `auto_platform_options`; the object has a context.
* `Builders/`: `check_version`, and `find_program` without the cache around it.
* `Builders/Guess.lean`: `identify_compiler`, `Guesser` and the two tables of `builders/c/__init__.py` and `builders/cxx/__init__.py`;
  the builder functions and the options are parameters
* `Builders/Small.lean`: the command lines of `builders/ghc.py`, `bison.py`, `llvm.py` (`Llc`, `Llvm_as`), `felix.py`, and the flags that
  `pkg_config.py` returns; `strip` for the blanks of ASCII.
* `Record/`: `record.py` with Python's rules for attributes.
* `Builders/Library.lean`: equality and hash of `Library` and `Executable` in `builders/c/__init__.py`
* `Msvc/Core.lean`: the output of the compiler and the command line of the linker in `builders/c/msvc.py`. `Msvc/Cl.lean`: the command
  line of the compiler and the compiler that `static` and `shared` make.
* `Builders/File.lean`: `copy`, `move`, `copy_regex` of `builders/file.py` on a tree of files and directories, and `makedirs`
  and `find` of `path.py`. `re.subn` and `re.search` are parameters. Left out: links, `..`, permissions of directories, a
  destination of `copy_regex` that is found by its own walk.
* `Execute/`: `Context.execute` with the child and the timer thread. Left out: Windows, stopped
  children, interrupts outside of `communicate`, what is captured. `Execute/Procs.lean`: the processes of the machine, their groups
  and sessions, and what `kill` of `killableprocess.py` reaches. Left out: the signal sent after Ctrl-C, permissions.
* `Console/`: `Log`, what goes to the log file with several threads, and to the terminal with one. Left out: colours on Windows.
* `Calls/Tools.lean`: cached functions that run one tool each (`Builder.compile`, `link_lib`, `link_exe`): a
  tool reads files one after the other, each depending on those read before, and writes one file. What
  a compiler makes of its input is a parameter. `build_objects` calls `compile.call` for each source and reports
  the files of these calls, one call after the other or (`buildThreads`) in threads; simplified: if the calls are made one after the
  other then the files of a call are reported when it returns. `build_exe` and `build_lib` are `build_objects` followed by a linker.
* `Gcc/`: libraries, include directories, dependency file, command lines and names of output files of
  `builders/c/gcc/__init__.py`, where `_build_link` puts objects, suffixes of `platform.py`; the dependency file is characters, not bytes. Left out: version and flag checks,
  `ranlib`, log texts. `Gcc/Factory.lean`: what `static` and `shared` make of their arguments.
  `Gcc/Project.lean`: `compile`, `build_objects`, `link_exe`, `link_lib`, `build_exe` and `build_lib` with these on top of `Calls/`, and scripts that build several targets; compiler and linker are parameters.
* `Persist/`: `PersistentObject.__eq__`. Objects of different classes are never equal.
* `Text/`: `substitute`, `autoconf_config_file`, `autoconf_config_header` of `builders/text.py`; `\w` is a
  parameter, a Python before 3.10 is assumed. `Text/Format.lean`: `format_substitute`, with the algorithm of
  CPython for `str.format`.
* `Main/Process.lean`: `main` after the command line was parsed, `load_configuration`, `save_configuration`. The other
  steps are parameters that may return or raise; the handler for SIGINT is left out.
* `Options/`: `make_parser` of `options.py`, `Context.__init__`, with the algorithm of argparse of CPython 3.11 for any table
  of options with no or one argument. `int` and the test for negative numbers are parameters. Left out: messages, positional
  arguments and other actions that a script adds. `Options/Shim.lean`: `OptparseShimMixin` with `optparse.Option` and the
  actions of argparse of CPython 3.11. Left out: help texts, the warning.
* `Main/Target.lean`: `target.py`, the registration of targets in `main.py`.
* `Checks/Builder.lean`: the `tempfile_*` and `try_*` functions of `builders/__init__.py`, the constructor of `builders/c/__init__.py` and
  `builders/c/openmp.py`, with the tools as a parameter.
* `Config/Results.lean`: the results of the tests of `config/c/__init__.py` (`Function` to `Variable`) and the programs of `function_test`,
  `struct_test` and `variable_test`. Left out: what `repr` escapes.
* `Builders/Versions.lean`: how the versions of gcc, clang, icc and other tools are read from their output, with `check_version`. The blanks and
  digits of Unicode are parameters.
* `Builders/Found.lean`: `find_program` (lib/fbuild/builders/__init__.py 29-69, not on Windows) as a body of `Calls/Core.lean`; `exists` and
  `isfile` are whether the file has a content. The arguments are fixed by the call; PATH is part of the body.
* `Ocaml/Rebuild.lean`: what `compile` and `link_*` of the OCaml builders report to the database. The compiler is a parameter.
* `Msvc/Shown.lean`: what `compile` and the linkers of `builders/c/msvc.py` write of the output of the tools. Left out: the log file and the standard error.
* `Gcc/Made.lean`: the checks of `Gcc.__init__`, `check_flags`, and those of `Compiler` and `Linker`. What the compiler answers is a parameter; all
  temporary files have one name.
* `Execute/Wait.lean`: `Popen.wait` with a timeout, `call` and `check_call` of killableprocess.py on POSIX, in hundredths of a second. How long the steps take
  and whether signals end `time.sleep` are parameters.
* `Text/Regex.lean`: `regex_substitute`; `re.sub` is a parameter. `Config/Get.lean`: `Test.get`. `Main/Hooks.lean`: `_call_or_deprecated`, `parse_args`
  and the beginning of `main`; the script is a table of functions.
* `Main/Buildroot.lean`: `Context.create_buildroot` and `clear_temp_dir` on the tree of `Builders/File.lean`.
* `Platform/Names.lean`: which platform the names of `Gcc/Link.lean` are for, and `runtime_env_libpath`.
* `Ocaml/Lex.lean`: `Ocamllex` and `Ocamlyacc`, with the tools as a parameter.
* `Ocaml/Made.lean`: the constructors of the OCaml builders, with the programs that are installed as a parameter.
* `Builders/ConfigTools.lean`: `LlvmConfig`, `SDLConfig` and `PkgConfig`, with the program as a parameter and the database as a list of answers.
* `Msvc/Lib.lean`: `Lib`, the files of `ExeLink` and `DllLink`, and the linkers that `static` and `shared` of msvc make.
* `Config/Programs.lean`: the programs of tests for headers, macros and types in `config/c/__init__.py`.
* `Builders/Made.lean`: the checks in the constructors of the compilers in `c/msvc.py`, `ghc.py`, `felix.py`, `java.py` and `scala.py`.
* `Java/Home.lean`: `Java.get_java_home` of `java.py`.
* `Config/Equal.lean`: `==` and `hash` of the tests in `config/c/__init__.py` and `config/cxx/__init__.py`.
* `Functools/Import.lean`: `import_module`, `import_function` and `call` of `functools.py`.
* `Path/Lines.lean`: `Path.linecount` of `path.py`.
* `Ocaml/Both.lean`: `build_objects`, `build_pack`, `_build_link`, `_link` of the OCaml builders and the builder `Ocaml`
  (lib/fbuild/builders/ocaml/__init__.py 412-628, 824-969). A path stands for the file that is there; options, include directories, the database and
  the libraries of the builder itself are left out. What the compilers do with files of the two kinds is a hypothesis (`Right`).
* `DB/Pickling.lean`: how values are pickled and loaded (lib/fbuild/db/backend.py 334-373, pickle_backend.py 12-73, sqlite_backend.py 223-326), on
  a stack machine for the operations of pickle. Values are trees: the memo, the encoding as bytes and `__reduce__` are left out.
* `Java/`: command lines of `java` and `javac`, the files that the compiler reports, of `builders/java.py`; `Java/Compile.lean`: the compiler
  objects of `builders/java.py` and `builders/scala.py` and the scripts of the latter. How scala saves what it compiles is a hypothesis.
* `Checks/`: `check_statement` to `check_types_exist` of `builders/c/__init__.py`; the compiler is a parameter.
* `Temp/`: `temp.py` with `textwrap.dedent` of CPython. Left out: errors of `mkdtemp` and `rmtree`, encodings.
* `Path/Operators.lean`: `/`, `+`, `name`, `parent`, `split`, `splitext` of `path.py`. Left out: lists given to `Path`.
* `Path/Rel.lean`: `relpath`, `abspath`, `normpath` with CPython's algorithms; command line of `jar`.
* `Execute/Command.lean`: text of a command in the log, variable with the directories of shared libraries, `Builder.run`.
* `Props/*.lean`: the property theorems, with the small specifications they are stated against and
  examples that meet the hypotheses.

Not modelled: the builders other than those named above,
packages, the documentation tools, everything that depends on CPython's memory model.

## Methods

Invariants over all reachable states (`DB`, `Sched`, `Rpc`, `Execute`, `Console`, `Alias`), refinement of a
specification (`Calls/Clean`, `Functools`, `Fnmatch`, `Glob`, `Text`), termination measures (`Sched`), induction
over inputs elsewhere. Violations are evaluated by the kernel on a concrete case.

## Properties

| id | property | status | remarks |
|----|----------|--------|---------|
| C01 | A cached result is only returned for unchanged code, arguments and declared sources | proved |  |
| C02 | An edited declared source is never forgotten | proved |  |
| C03 | An edited external source triggers a re-run (pickle and cache engines) | proved |  |
| C04 | An edited external source triggers a re-run (sqlite engine) | partial | False: checking the edited file for another call, or for a run of this call that fails, removes the record (witnesses). C04_partial: proved for every history with the sqlite engine in which the file is not checked by a call while it is different, and not deleted by command. |
| C05 | A missing destination forces a re-run | proved |  |
| C06 | Null build | partial | Proved for all engines when the recorded calls among cached functions are registered, current and not mutually recursive, and no call of the same function that began when its record was stale is stored in between; with sqlite also over rollbacks and, once the database was closed, crashes. False for a caller that catches the exception of a cached function it calls, and for parallel calls after the text of the function changed (witnesses). |
| C07 | Editing a cached function throws away all of its stored results | proved |  |
| C08 | Editing a cached function re-runs the cached functions that call it | partial | false as stated: see C08_violated (callee re-cached by another caller) and C08_branch_violated (callee of a clean re-execution not recorded) |
| C09 | The dependency check of a function terminates and is exact | partial | false for mutually recursive cached functions (C09_mutual_violated); proved when recorded calls have no cycle but direct self calls |
| C10 | Caching one call does not disturb other stored results | proved |  |
| C11 | A call that raises stores nothing | proved |  |
| C12 | A missing declared source is an error | proved |  |
| C13 | Content changes are noticed in spite of the mtime shortcut | partial | false when two writes share a modification time and the first was checked (C13_coarse_mtime_violated); proved when the modification time determines the content, and within a second of it without that assumption |
| C14 | An edit made while the function is running is noticed by the next call | partial | declared sources proved; false for external sources (C14_external_violated) |
| C15 | The calls recorded for a function are exactly the cached calls it makes | partial | Proved for executions in which no call raises, for functions that were new or stale when called; false after an exception inside, for functions whose record is current, and with two threads (witnesses). |
| C16 | External dependencies reach every enclosing cached call | partial | Proved for files reported by calls executed inside and still existing; false for calls inside answered from the database and for deleted files (witnesses). |
| C17 | Deleting a function or a file from the database | partial | proved for the cache and pickle engine; false for the sqlite engine (witnesses) |
| C18 | Saving the state file is never torn by a crash | proved |  |
| C19 | A crash while saving does not lose the state | partial | false: killed between the two renames the next start finds no state file |
| C20 | A state file of another database version is never used | partial | False for both engines: killed between saving and removing the old tables, they are used, whatever they are; proved for every other crash point. |
| C21 | Results survive a restart | proved |  |
| C22 | Recursive and parallel first calls work | partial | proved for the cache and pickle engine; false for the sqlite engine (witnesses) |
| C23 | Interleaved calls keep hits sound | partial | false when equal calls overlap (C23_overlap_violated) |
| C24 | Equal calls have equal keys | partial | proved for functions and bound methods whose parameters other than **kwargs are not called kw or kwargs; false for the constructors of PersistentObject (C24_persistent_violated) |
| C25 | Invalid argument lists are rejected | partial | proved for functions without keyword-only parameters or with *args; false otherwise (C25_surplus_violated), for a parameter called kw (C25_kw_violated) and for a keyword self of a method (C25_self_violated) |
| C26 | map keeps the order | proved |  |
| C27 | Every task runs exactly once | proved |  |
| C28 | Dependencies run first | proved |  |
| C29 | Results of map_with_dependencies do not depend on the schedule | proved |  |
| C30 | The scheduler never deadlocks and always finishes | partial | proved for main programs that do not use interruptible outside of tasks; false otherwise (C30_main_interruptible_violated) |
| C31 | Dependency loops are reported | partial | proved: DependencyLoop exactly for loops; false: the exception names only sources that depend on each other directly, none for a loop of three (C31_names_violated) |
| C32 | Task exceptions reach the caller | proved |  |
| C33 | After a failure no further task is started | partial | false: tasks already in the ready queue are started after map has raised (C33_violated); proved for tasks that depend on the failed task |
| C34 | At most one worker runs controlled code | partial | proved while the main thread does not use interruptible; false otherwise: it releases the lock of a worker (C34_violated) |
| C35 | Shutdown ends all workers | partial | proved when no evaluation was left by the exception of a task; false otherwise: a worker inside _evaluate takes the None of shutdown and later waits forever (C35_violated) |
| C36 | Database requests are answered in order, each with its own answer | partial | order and ownership of answers proved; false: a call right after start can be refused (C36_start_race_violated), a returned exception object is raised (C36_exception_value_violated) |
| C37 | A database request never blocks forever | partial | false: after a BaseException of the handler pending callers wait forever (C37_fatal_violated), two joins block all calls (C37_double_join_violated); proved without these |
| C38 | fnmatch implements shell patterns | partial | proved for names without newlines and patterns without reversed ranges; false otherwise (witnesses) |
| C39 | glob.escape is exact | partial | exactly s and s followed by a newline match; the latter is wrong (C39_newline_violated) |
| C40 | glob returns exactly the matching existing paths | partial | proved except for patterns that end in **, where a directory that does not exist is returned (C40_missing_directory_violated); names without newlines, patterns without reversed ranges, no symbolic links |
| C41 | addroot puts files below the root | partial | idempotence proved for all paths; the rest proved for relative paths that do not start with the characters of the root, false otherwise (witnesses) |
| C42 | Extension replacement | partial | proved for extensions with one dot and names that are not only dots; false otherwise (C42_violated) |
| C43 | splitall loses nothing | proved |  |
| C44 | install builds first | partial | proved: everything asked for, and a build, before install; false: with configure the build comes first (C44_configure_violated), install given twice (C44_twice_violated) |
| C45 | Installed files stay below destdir | partial | proved for directories without two slashes in front, names that are not absolute, and no ..; false otherwise (C45_violated) |
| C46 | Installing does not change the source and gives the target its permissions | partial | proved without permissions, and targets that are not dangling links; permissions are always given to the source (C46_perms_violated), dangling links are not replaced (C46_dangling_violated), and a directory at the target gets the file under another name (C46_directory_violated) |
| C47 | Platform matchers | proved | the matcher as a list of names |
| C48 | Platform options are applied in order | partial | result proved when no list object is given twice and no set is added to; key+ changes the caller's lists and the option lists in place, so a second call gives other values; key+ on a set raises; key- with a text on a list removes substrings |
| C49 | Version checks | partial | proved unless a number is compared with a word, which gives a TypeError instead of ConfigFailed |
| C50 | find_program takes the first candidate | partial | proved when no name is itself a file; otherwise a file in the current directory is taken before the search directories. The cache around the function is not part of this statement |
| C51 | Outcome of execute | partial | a normal return implies the condition; the converse is proved when the timer did not go off; a timer that goes off after the child exited with 0 makes execute raise |
| C52 | No log message is lost | partial | Every message is written exactly once for all interleavings of nested programs; order per thread is proved for programs without nested contexts; nested contexts and unbuffered writes break the order (witnesses). |
| C53 | Log lines of different threads do not mix | partial | Proved for the first line of a log_from_thread context when all output goes through the lock; from the second line on the buffer is gone and lines mix (witness). |
| C54 | Linker order of libraries | partial | Proved for acyclic libraries with distinct names; two libraries with the same file name lose one of them and a cycle is a RecursionError at every limit (witnesses). |
| C55 | Include directories keep their order | partial | Every non-empty directory once and no other is proved; the order is the sorted one instead of the given one (witness). |
| C56 | Dependency files are read back | partial | Proved for names that need no quoting, for all placements of line breaks; names with blanks or dollars are misread, and a target with a blank is an error (witnesses). |
| C57 | Equality of persistent objects is an equivalence | partial | Reflexivity for all values; symmetry and transitivity when all objects of a class have the same attributes; both fail otherwise (witnesses). |
| C58 | The key under which a result is stored is the arguments of the call | partial | False as stated: if the function changes its argument every engine stores the result under the changed value; with cache and pickle a change by the caller after the call does the same. Proved for every history in which no object is changed while it is an argument of a running call and, for cache and pickle, no stored object is changed. |
| C59 | Incremental build equals clean build | partial | C59_partial: for every history of builds, edits and new processes of a well-behaved script, a build returns the value and leaves the files of a build in which every call runs its function; C59_empty_partial compares with an empty database. WellBehaved is stated on runs without a database and is stronger than the property: a function covers the sources of the functions it calls, functions called by cached functions keep their texts, and write files only if the caller reports these (as build_objects does), each output belongs to one call, a failing function writes nothing, reported sources are not removed, outputs are not edited. The violations show a script for each of these conditions. One thread; C59_partial is for the engines cache and pickle, C59_sqlite_partial for sqlite, where functions must report no files (witness: of two units with an edited reported header only one is compiled again); killed processes are in C123. |
| C60 | Configuration header substitution | partial | autoconf_config_file and autoconf_config_header: for every text without carriage returns, the unique cut into occurrences and other characters, the file written, and no file if a name is undefined. substitute: one pattern, patterns that do not occur, or several patterns marked by a character in front of them. False for carriage returns, for definitions with value 0, and for other patterns in substitute (witnesses). regex_substitute is not modelled. |
| C61 | A call whose result could not be stored completely is not a success | partial | False for the cache and pickle engine (witness). Proved for the sqlite engine under the conditions of C66. |
| C62 | A missing destination forces a re-run (sqlite engine) | partial | Declared destinations: proved. Reported destinations: proved if the file is not a source of the call too and is not checked while it has another content; otherwise false (witness). |
| C63 | A failed or unknown target prevents the installation | partial | proved when install is asked for once; false for install given twice, where the first installation precedes the build |
| C64 | A result from the table is what the function returned | partial | False for cache and pickle if the caller changes the result object (witness). Proved for every history in which nobody changes stored objects or arguments of running calls; files and digests are parameters. |
| C65 | addprefix changes only the file name | proved |  |
| C66 | A value returned from the database is the value of the last stored execution (sqlite engine) | partial | For every history with the sqlite engine, crashes included, in which no store raised between the preparation of a call and the storing of its result, equal calls do not overlap, and the modification time determines the content. Without the first condition it is false (C66_rollback_violated): the ids of rolled back rows are given to other files. |
| C67 | Results of different functions are not mixed up | partial | Proved for scripts that are Tidy: no two functions or classes with the same module and name, no overriding of a cached method by a class of the same module, no module named like a class. Each condition is needed: a method that overrides one of the same module and calls super returns the result of the base class on the second call (witnesses). |
| C68 | Every cached function can be called | partial | Proved for functions, constructors and methods found on the class or a direct base. With three levels of overriding and super the call of the uppermost method raises KeyError (witness). |
| C69 | Editing a cached function changes its digest | partial | Proved for functions and methods of Tidy scripts. False for constructors and decorators: for all texts the digest stays the same. |
| C70 | Declared files are the files given for annotated parameters | partial | Proved for every call of a function that Python accepts, with values that fit the annotations; parameters named kw or kwargs are excluded as in C24. A text given for SRCS is split into characters, annotations that are not classes raise, annotations of __init__ are ignored (witnesses). |
| C71 | OCaml: the dependencies of a source are the files of the modules it refers to | partial | Sound, and complete for modules, for all directories. The interface of the source itself is found beside it or outside the buildroot; of several include directories only the first is searched for it (witness). |
| C72 | OCaml: scan returns the closure of the dependencies | partial | What an executed scan returns is the closure (both builders); the native one ends for all finite graphs, the bytecode one for graphs without loops and for no limit on recursion with a loop (witness). A cached scan is not invalidated by edits of the files in between, so objects become stale (witness). |
| C73 | OCaml: objects are linked in dependency order | partial | Proved for every schedule, without pack, if each module has one spelling in a directory. With pack the objects given by the caller are on no command line; a file of the same name in the current directory hides a dependency (witnesses). |
| C74 | nm: objects are put before the objects they need | partial | Proved for objects without loops: each object is before the last of the objects that define a symbol it needs. An earlier definer may stand before it. Two objects that need each other exhaust every limit on recursion; from the cache the second call gets an iterator that is used up (witnesses). |
| C75 | Config: fields() lists each test of a class once | partial | Proved for every hierarchy in which each class has one base and no name is assigned again after it was deleted; for several bases: no name twice if no test is inherited from two of them. False otherwise: cmath of config/cxx lists isinf twice (witness). |
| C76 | Config: a C++ test looks for its name in the namespace of its class | partial | Proved for classes whose bases have no tests, with each descriptor used for one name. A derived class does not inherit the namespace (config/cxx/iterator.py), one with a namespace changes the tests of its base; structs and tests written as functions do not work with a namespace (witnesses). |
| C77 | Config: what a test returns | partial | Proved for all tests that are not for types, and for types if the program prints the numbers only. Other output makes a type test raise; the declared output of a type test is ignored (witnesses). |
| C78 | Config: functions(), macros(), types() and so on are complete | partial | Proved for tests made by descriptors in classes with one base. Functions tested by a property are in no listing (witness). |
| C79 | Config: a stored result belongs to the test that is asked for | partial | Proved within one script whose definitions are Tidy. For every edit of a test the digest stays the same, so it is never run again; the results of the two shipped tests for isinf are exchanged (witnesses). |
| C80 | gcc: the compiler gets what the builder and the call ask for | partial | Proved for all builders and calls, for options that no word passed on as it is looks like, and for flags in which no word is repeated. Repeated words are dropped, so `-include a.h -include b.h` loses its second option; macros are sorted, so the value of the call does not override that of the builder (witnesses). |
| C81 | gcc: the linker finds the libraries that were given | partial | Proved for libraries with different names, called libNAME.a or libNAME.so, in directories, if no other directory searched has a library of that name. Plain libraries are linked in reverse order, directories are searched in sorted order, a library in the working directory is not found, other names are cut wrongly (witnesses). |
| C82 | gcc: a static library contains the objects it was given | partial | Proved for existing objects with plain names that differ without their directories, if an old archive has no other members. `ar -rcs` keeps members that are no longer given, objects of the same name in two directories replace each other, names with brackets are taken as patterns (witnesses). |
| C83 | gcc: different sources are built into different files | partial | Proved for relative paths outside the buildroot: for sources of one extension, and for outputs of one kind. Sources that differ in the extension only, absolute paths with the same last component, and generated sources share an object file (witnesses). |
| C84 | C projects: after a successful build nothing is out of date | partial | Proved for every project in which calls write different files, linkers read the files they declare and compilers report the headers they read, the text of compile stays the same, and no header is removed; C84_build_partial is the statement for build_objects followed by a linker. An object file that is added to an executable and taken away again stays in it, because the two calls of link_exe write one file. `link_exe` declares the libraries that are given, so the executable is stale when a library needed by one of these changes; a new header that hides another is not noticed (witnesses). |
| C85 | file.copy puts a copy of the file where it was asked for | partial | Proved for all trees without links and paths without `..`, if no directory is at the destination and the destination has a directory part. If there is a directory the file goes into it but the directory is returned; a destination like `buildfoo` next to the buildroot `build` cannot be made (witnesses). |
| C86 | file.move moves the file and can be part of a script that is run again | partial | Proved for the call itself, as for copy. The same call in a later build raises in every state of the database, because the source is a declared source and is gone (C86_repeat_violated is for all states). |
| C87 | file.copy_regex copies exactly the files that match | partial | Proved for a srcdir without a slash at the end, if destinations are no directories and all different, and apart from the sources. With a slash at the end the names lose a character and files can leave the buildroot; with the default include_dirs=True every matching directory makes it raise; a file added later is not noticed (witnesses). |
| C88 | guess finds the first builder that works, for the compiler that was asked for | partial | The choice of the entry is proved for all tables; that it is for the compiler given, if the platform passed names no compiler. A set passed as platform is changed, so that a later call with it takes the wrong compiler; an executable that is not identified gives a NameError; the shared builder for g++ is made by gxx.static (witnesses). |
| C89 | libraries and executables are equal just if they were built in the same way | partial | Proved for == and hash. != is that of str: two libraries of one path that were built in different ways are neither == nor != (C89_ne_violated is for all of them). |
| C90 | msvc: the headers a source includes are dependencies | partial | Proved for all outputs in English with paths that have no blank in front. Headers on another drive are ignored; the notes of a compiler in another language are not recognised (witnesses). |
| C91 | msvc: the linker is given each needed library once and in order | partial | Proved for the libraries of the call, of any depth. The libraries of the builder are put in front once more, in the wrong order; the directories are passed by an option that link does not know (witnesses). That link ignores unknown options and knows /LIBPATH only is taken from its documentation. |
| C92 | sqlite: a killed process loses no stored results | partial | Proved once the database was closed by this version. For a new database it is false for all processes: the version is stored by close only, so the file of a first process that was killed is removed by the next one. |
| C93 | format_substitute fills in a template | proved | For all texts and patterns. str.format is modelled by the algorithm of CPython, with the classes of the values as parameters. |
| C94 | The exit status tells whether everything was done | proved | The steps are parameters: each may return or raise anything in any state. The exit status is that of fbuild-light. |
| C95 | The results of a build that failed or was interrupted are kept | proved | For processes that are not killed (C19, C92 are about those), with saving not turned off; pickling of the tables is assumed to succeed and to be read back. The cache engine has no file. |
| C96 | --do-not-save-database leaves the database as it was | partial | Proved for the pickle engine without --rebuild, for all state files and ways to end. The sqlite engine commits each result, so that all of them are found; with --rebuild the state file is removed and not written again. |
| C97 | --rebuild begins with an empty database | proved |  |
| C98 | A command in the log can be run again | partial | Proved for words of plain characters and for words with blanks but without single quotes. A single quote in a word with blanks, empty words, and quotes, tabs or special characters in a word without blanks are read differently. |
| C99 | A program finds the shared libraries that were built for it | partial | Proved for the libraries the program was linked with directly, if no directory of the environment has a library of that name. The directories are put behind those of the environment, and libraries of libraries are left out. |
| C100 | relpath leads to the same file, and jar gets the files it was given | proved | For all paths, in a tree without symbolic links. |
| C101 | Cached calls in several threads do what they do one after the other | partial | Proved for every interleaving and every dependency relation, for well-behaved scripts (as for C59), if the function calls no cached functions and a task reads only files of tasks it waits for. If it does call one, a later task may raise RecursionError (witness). For a single task it is proved for all programs, with nested calls (C101_alone). |
| C102 | The database works as before after cached calls in several threads | partial | Proved under the conditions of C101; Life has parallel builds as one of its steps, so that C59 and C84 hold after them as well. False for functions that call cached functions: the threads share Database._callstack, so wrong callers are recorded; in the witness each later call of f raises RecursionError for every recursion limit. |
| C103 | Each program and library has its own object files | partial | Proved for relative paths if no target is below another; static and shared objects and libraries are kept apart for all paths and platforms. Targets a and a/b may share an object file, objects of an absolute target are put beside it, a program called obj takes the name of the directory of objects. |
| C104 | A temporary file has the text that was given, whatever its indentation in the script | proved | For all texts and all names without a slash. |
| C105 | Temporary directories are removed | partial | Proved for delete=True. The default is delete=False and no caller in fbuild gives another, so that the directory stays until the next process or the end of a successful build. |
| C106 | The digest of a function is that of its definition | partial | For every definition of the grammar of tokens in Props/Source.lean; the tokenizer is a parameter, BlockFinder is that of CPython 3.11. From Python 3.11 on inspect has an __all__ without re, and lib/fbuild/inspect.py raises NameError for every function. |
| C107 | The digest of a lambda is that of its statement | partial | Proved if the logical line that begins in the line of the lambda ends with the statement. If a bracket in front of that line is open and the expression is in another line, the text is the line with lambda only. |
| C108 | A target name runs the function that was registered under it | proved | For all registrations and all attributes of the build script. |
| C109 | compile of Java returns the files that the compiler wrote | partial | Proved for paths without ] and newline that do not begin with a quote or RegularFileObject[. A path with ] is cut off. |
| C110 | run_class searches all class paths | proved | For at least one class path, none with a colon in it. |
| C111 | The Java compiler searches all class paths | partial | Proved for at most one class path. -cp is given once for each, and the compiler uses the last one only; that the last -cp counts is the specification of javac that is assumed. |
| C112 | Checks of a C compiler find exactly what compiles | proved | For every compiler, which is a parameter: what comes of a text. |
| C113 | check_types_exist finds exactly the types that exist | partial | Proved if no name has two characters. Such a name is unpacked into name and statement and is never in the result. |
| C114 | build_exe and build_lib: threads make no difference | partial | Proved for every interleaving, for projects as in C84, if no source is given twice; C114_partial also says that the state after the build is again one to which C59, C84 and C114 apply. C114_succeeds_partial and C114_after_partial cover builds that fail, if every thread gets enough steps to finish. Not covered: a process that ends while a thread is compiling. The file of a call is stale for the reasons given for C84 (witness). |
| C115 | Installing through the privileged helper does what installing directly does | proved | For every interleaving; the helper may be ended from outside at any moment, then with a nonzero status. The working directory is absolute. |
| C116 | The OCaml compilers are given the options of the builder and of the call | partial | Proved for flags that are whole options and names that do not begin with a dash. Include directories are sorted, so the order of the caller is lost. Ocamlopt ignores profile_flags of the call. Ocamlopt compiles interfaces with an Ocamlc that has none of the options of the builder. |
| C117 | ghc is given the options of the builder and of the call | partial | Proved if no word is repeated in the flags, or if all flags are switches. A repeated word is left out: of -package a -package b there remains -package a b, and a switch that overrides another is lost. |
| C118 | bison is given the options of the object and of the call | proved | For flags that are whole options and a source that does not begin with a dash. |
| C119 | llc and llvm-as are given the options of the object and of the call | partial | Proved for objects that are made without flags. The flags an object is made with are never used. |
| C120 | flx is given the options of the builder and of the call | partial | Proved for Felix.compile except that the flags of the builder are given twice. The include directories of a Flx are never used. |
| C121 | pkg-config: the flags that are returned are those that are printed | partial | Proved for at least one flag with one blank between flags. If nothing is printed then a list with an empty flag is returned. |
| C122 | The items of a record are its attributes | partial | Proved for names that are not attributes of dict. del r.x always raises AttributeError. |
| C123 | After a build was killed, the next build is right | partial | Engine pickle. Proved if the calls whose files were written are not answered afterwards: nothing was saved yet, or a source of theirs was deleted with --delete-file, or the function with --delete-function if no other function reports its files. Without the deletions the next build may take half a file for the result. Scripts are well-behaved as in C59. |
| C124 | A cached method with platform options declares the files that it is given | partial | Proved if no matching option is about an annotated parameter and none adds to a list of the caller. A library that is added by an option is linked but is no source of the call; a list of the caller that an option adds to is changed before the result is stored, so that the call is never found again. |
| C125 | The digest of a file is the hash of all of its contents | proved | The law of update that hashlib documents is the hypothesis about the hash. Files that are changed while they are read are not covered. |
| C126 | Path.globall returns what the patterns pick and exclude does not match | partial | Proved for patterns that are not in lists, and for all patterns without exclude. For patterns in a list exclude is not passed on. Patterns that end in ** and paths with newlines are left out as in C40 and C38. |
| C127 | Path.find finds each file below a directory whose name matches | proved | Trees without links, in which all directories can be read. |
| C128 | The command of the Microsoft compiler has the options of the builder and of the call | partial | Proved that the options and no others are in the command, for flags of the call without repetition. Include directories and macros are sorted, so that a macro of the builder can win over that of the call; repeated flags are left out; the argument exe has no effect. |
| C129 | Each argument of the builders for gcc reaches the commands that it is for | partial | Proved for compilations, for links of executables and of shared libraries, and for static libraries apart from the arguments ar and link_flags and empty prefixes and suffixes, which have no effect there. |
| C130 | The terminal shows the messages of the level that was asked for | proved | For one job (threadcount 1); the order with several threads is in C52 and C53. |
| C131 | guess_platform tells what kind of system this is | partial | Proved except for three things: Python on Windows raises KeyError for an unknown system, a name given as an argument has to be in lower case, and 64-bit MinGW is not known. |
| C132 | C programs and libraries built with gcc are what the commands make of the files that are there | partial | Proved on the models of the database, the threads, the commands, the names of files and the dependency file together, for projects as in Project.Ok: relative sources with one extension, names that need no quoting, one set of options for all calls, a linker that reads what it is given only. Sources that differ in their extension only share an object file; a header with a blank in its name makes the build fail; a library that is built after the executable that needs it, and a library that another library needs, are not noticed. |
| C133 | With the sqlite engine editing a cached function re-runs the cached functions that call it | partial | False as stated, as C08: a callee that was called and stored with the new text hides the change from its other callers, and callees of a clean re-execution are not recorded. Proved for callees that every stored execution calls, if the last stored execution of the callee used another text. |
| C134 | The database engine makes no difference | partial | A relation between the tables that every step preserves. Proved for histories without external files and killed processes in which sqlite stores every result and a function that is out of date is so for all its running calls. Each of these conditions is necessary: sqlite forgets external files of other calls, cannot store the first results of overlapping calls, keeps results of killed processes, and never reports that something was deleted. |
| C135 | The command line means what its options say | partial | On a model of the algorithm of argparse of CPython 3.11, for any table of options with names of their own. Two documented uses are refused: targets in two places, and an argument that begins with a dash after a space. |
| C136 | The settings of a build follow from the command line | partial | From the words of the command line to the settings of the context, for the command lines of C135. --no-warnings works only if it is written in full, and a target of that name turns the warnings off. |
| C137 | An option made with optparse means the same to the parser of fbuild | partial | On models of optparse.Option and of the actions of argparse of CPython 3.11; Python's int, float and complex are parameters. Proved for options that store something, except: flags that are not used are False and not None, integers that begin with a zero, the type long, callbacks, flags with a metavar. Texts as defaults only where no conversion is needed. For options that share a destination if the first of them has the default: otherwise another default counts. Tuples become lists. |
| C138 | Running a Scala script does not touch the sources | partial | For every program that saves as scala does. For a script outside of the build directory the path that is returned is beside the script, while the archive is saved beside the copy. |
| C139 | Compiling Java and Scala writes to the build directory and shows the messages | partial | Proved without a buildroot in the call; one in the call ends up below that of the context. Flags that are themselves -d, -cp or -sourcepath are left out. |
| C140 | A C builder that was made works | partial | For all tools. The last check of the constructor lets the ExecutionError of a compiler or linker out, and guessing a compiler ends with it although another one works. |
| C141 | What configuration tests return compares by value | partial | Proved for all results but functions: no function is equal to any, and comparing two that return the same type raises AttributeError. repr of a struct raises NameError. |
| C142 | Programs of configuration tests use what they test as it was described | partial | Read back from the lines of the program. For parameters whose types are texts; for those that are a Function the program is not C, or there is a TypeError. |
| C143 | Tools of the wrong version are refused | partial | From the output of the tool to the outcome of the check, for versions of numbers. gcc from a packager with a blank in the name, such as Debian, is read wrongly; clang from a packager leads to an AttributeError, and output without a version to an IndexError or AttributeError. |
| C144 | What was found out about the machine is true of it | partial | Proved of a search that is made. find_program is cached and declares no files, so in every later history without a change of its text it returns what was found at first, also when that program is gone. |
| C145 | OCaml libraries and programs consist of what they are built from | partial | For all compilers that make and link files by kind; paths stand for the files there. Objects given together with pack are dropped, a packed object with a buildroot is put below that of the context, linking without includes is a TypeError, Ocaml.compile is always a NameError, and the objects of Ocaml.build_objects cannot be linked by it. |
| C146 | Stored values come back with the context of the process, and bad ones do no harm | partial | On a stack machine for pickle; values are trees. Pickle engine: one value that cannot be pickled and the results of the whole build are lost; if the module of a class is gone the database cannot be opened. Sqlite engine: a class in stored arguments that is gone makes every call of the function raise. |
| C147 | At the end of its time a command is killed with what it started, and nothing else is | partial | An invariant over all steps of the processes and the two threads, as long as the command has not been waited for. If the timer runs after that, kill reaches nothing although processes of the group are left, or a process that has got the number of the command. |
| C148 | Paths that are put together and taken apart lead where they should | proved | POSIX. What a path leads to is stated for an arbitrary file system. Paths given as lists are left out. |
| C149 | An OCaml object is compiled again whenever it would be another one | partial | If no file appears or disappears. An interface that is added beside an implementation is not noticed by what uses the module. The .cmi file that is made for an implementation is not reported if there is an interface in the source tree that was not given to be compiled. |
| C150 | What the tools of Visual C say reaches the user, and their results are those of the calls | partial | Proved at the usual level of messages. What the linker says about a shared library that it cannot link is not shown; in verbose builds output is shown twice; quieter counts as 1; output that cannot be decoded makes a successful call raise. |
| C151 | A compiler that was made accepts the options it was given | partial | For all compilers. Flags for debugging, profiling and optimizing that are only asked for in a call are never checked: the compiler is taken, and the call fails. |
| C152 | Waiting with a limit gives the status of what ends in time and kills the rest | partial | From Python 3.5 on the status of every process that has not ended at the first look is lost: it is given -9 when the time is over. Before, the same happens in a race with the sleep. On a slow machine ValueError is raised and nothing is killed. Without a limit, a process that is stopped counts as ended. |
| C153 | regex_substitute applies its patterns one after the other | partial | For sources with line ends of POSIX; others are changed to these. |
| C154 | A result of a test is found by its name | partial | If the attributes lead to None the default is returned, although they exist. |
| C155 | The hooks of a script see and change the parser and the arguments | partial | If a script cannot be imported and an argument is one that it would have added, the error is that of the parser. |
| C156 | A build begins with its directories, an empty log and an empty temporary directory | partial | On a tree without links. The directory of the log is not made, so that with a log in a new directory no build begins; nor if a file has the name of the temporary directory, as removing it fails silently. |
| C157 | Libraries and programs have the names that the tools of the platform expect | partial | The platform is one of the table or empty; what linkers look for is taken from their manuals. On Cygwin the variable is LD_LIBRARY_PATH, while Windows looks at PATH. |
| C158 | Generated lexers and parsers are those of their sources | partial | For sources called .mll and .mly and tools as their manuals describe them. x.mll and x.mly give the same x.ml, and so do a source and a source at the same place in the build directory. |
| C159 | OCaml compilers that were made work | partial | For programs whose versions are numbers. The last check lets the ExecutionError of a compiler or linker out; Ocaml needs ocamlcp, which it does not use; Ocamlopt does not require the version of the Ocamlc that it makes. |
| C160 | Configuration tools are asked for what the method says | partial | obj_root asks for the directory of the sources. The answers of LlvmConfig and PkgConfig are cached without the program as a source, so that those of an older program are returned. |
| C161 | Visual C builders link what they are asked to | partial | Proved for the words the programs read and the file they write, for flags that are options and objects that are not. Prefix and suffix of static libraries and the program given are ignored, empty prefixes and suffixes are replaced by those of the machine fbuild runs on, and libraries do not get to lib. |
| C162 | Tests for headers and macros find exactly what the compiler has | proved | For a model of the preprocessor that reads #include, #ifndef, #error and #endif; a program that is compiled is run without failure. For tests without a program or output of their own. |
| C163 | Tests for types measure the alignment, the size and the sign of the type | proved | For a model of C that reads the lines of these programs: typedef, a struct with a char before the member, offsetof, sizeof and the comparison of converted numbers. Alignment and size are positive and fit into an int of 32 bits. For tests without a program of their own. |
| C164 | Compilers of Visual C, Haskell, Java, Scala and Felix that were made accept their options | partial | Proved that the calls are accepted for cl, ghc, javac and scala once the object is made, and that nothing but ConfigFailed is raised. False the other way round: cl, javac and scala are refused if the program does not know the flags for debugging or optimizing, even if nobody asks for these (the flag -optimise is gone from newer compilers of Scala). False for Felix: a program that always fails is taken. |
| C165 | The home directory of Java is read from what Java prints | partial | Proved for output with a line [Opened HOME/jre/lib..., if HOME has no /jre/lib in it. False for a home directory below another jre/lib, and for Java 9 and later, whose output has another form, so that the answer is None. |
| C166 | Configuration tests are equal exactly if they test the same | partial | Proved for all tests but those of templates and those with types that are Function objects; equal tests have the same hash in all cases. False for templates: the types they are tested with are not compared. With Function objects, comparing raises AttributeError. A function test with a list as default_args has no hash. |
| C167 | A function given by its dotted name is the function of that name | proved | For a model of __import__ that gives the module itself if the list of names is not empty, and the package otherwise. That importing a module runs it, and can raise anything, is left out. |
| C168 | linecount counts the lines of a file | proved | For files whose lines all end in the same way. How Python reads lines from a text file is modelled; decoding is left out. |
