{
 "claims": [
  {
   "property": "C01",
   "status": "proved",
   "theorems": [
    "Verif.DB.C01_hit_sound"
   ],
   "note": ""
  },
  {
   "property": "C02",
   "status": "proved",
   "theorems": [
    "Verif.DB.C02_edited_source"
   ],
   "note": ""
  },
  {
   "property": "C03",
   "status": "proved",
   "theorems": [
    "Verif.DB.C03_edited_external"
   ],
   "note": ""
  },
  {
   "property": "C04",
   "status": "partial",
   "theorems": [
    "Verif.DB.C04_partial",
    "Verif.DB.C04_shared_header_violated",
    "Verif.DB.C04_failed_rebuild_violated"
   ],
   "note": "False: checking the edited file for another call, or for a run of this call that fails, removes the record (witnesses). C04_partial: proved for every history with the sqlite engine in which the file is not checked by a call while it is different, and not deleted by command."
  },
  {
   "property": "C05",
   "status": "proved",
   "theorems": [
    "Verif.DB.C05_declared",
    "Verif.DB.C05_registered"
   ],
   "note": ""
  },
  {
   "property": "C06",
   "status": "partial",
   "theorems": [
    "Verif.DB.C06_null_call_partial",
    "Verif.DB.C06_null_build_partial",
    "Verif.DB.C06_sqlite_null_call_partial",
    "Verif.DB.C06_sqlite_null_build_partial",
    "Verif.DB.C06_caught_violated",
    "Verif.DB.C06_parallel_violated",
    "Verif.DB.C06_sqlite_lost_violated"
   ],
   "note": "Proved for all engines when the recorded calls among cached functions are registered, current and not mutually recursive, and no call of the same function that began when its record was stale is stored in between; with sqlite also over rollbacks and, once the database was closed, crashes. False for a caller that catches the exception of a cached function it calls, and for parallel calls after the text of the function changed (witnesses)."
  },
  {
   "property": "C07",
   "status": "proved",
   "theorems": [
    "Verif.DB.C07_other_text",
    "Verif.DB.C07_edit_drops_all"
   ],
   "note": ""
  },
  {
   "property": "C08",
   "status": "partial",
   "theorems": [
    "Verif.DB.C08_partial",
    "Verif.DB.C08_violated",
    "Verif.DB.C08_branch_violated"
   ],
   "note": "false as stated: see C08_violated (callee re-cached by another caller) and C08_branch_violated (callee of a clean re-execution not recorded)"
  },
  {
   "property": "C09",
   "status": "partial",
   "theorems": [
    "Verif.DB.C09_exact_partial",
    "Verif.DB.C09_terminates_partial",
    "Verif.DB.C09_mutual_violated"
   ],
   "note": "false for mutually recursive cached functions (C09_mutual_violated); proved when recorded calls have no cycle but direct self calls"
  },
  {
   "property": "C10",
   "status": "proved",
   "theorems": [
    "Verif.DB.C10_frame"
   ],
   "note": ""
  },
  {
   "property": "C100",
   "status": "proved",
   "theorems": [
    "Verif.Path.Rel.C100_relpath",
    "Verif.Path.Rel.C100_below",
    "Verif.Path.Rel.C100_normpath",
    "Verif.Path.Rel.C100_abspath",
    "Verif.Path.Rel.C100_jar",
    "Verif.Path.Rel.C100_manifest",
    "Verif.Path.Rel.C100_empty"
   ],
   "note": "For all paths, in a tree without symbolic links."
  },
  {
   "property": "C101",
   "status": "partial",
   "theorems": [
    "Verif.Calls.C101_partial",
    "Verif.Calls.C101_files_partial",
    "Verif.Calls.C101_alone",
    "Verif.Calls.C101_violated"
   ],
   "note": "Proved for every interleaving and every dependency relation, for well-behaved scripts (as for C59), if the function calls no cached functions and a task reads only files of tasks it waits for. If it does call one, a later task may raise RecursionError (witness). For a single task it is proved for all programs, with nested calls (C101_alone)."
  },
  {
   "property": "C102",
   "status": "partial",
   "theorems": [
    "Verif.Calls.C102_partial",
    "Verif.Calls.C102_violated"
   ],
   "note": "Proved under the conditions of C101; Life has parallel builds as one of its steps, so that C59 and C84 hold after them as well. False for functions that call cached functions: the threads share Database._callstack, so wrong callers are recorded; in the witness each later call of f raises RecursionError for every recursion limit."
  },
  {
   "property": "C103",
   "status": "partial",
   "theorems": [
    "Verif.Gcc.C103_targets_partial",
    "Verif.Gcc.C103_linked_partial",
    "Verif.Gcc.C103_objects",
    "Verif.Gcc.C103_libraries",
    "Verif.Gcc.C103_violated",
    "Verif.Gcc.C103_linked_violated"
   ],
   "note": "Proved for relative paths if no target is below another; static and shared objects and libraries are kept apart for all paths and platforms. Targets a and a/b may share an object file, objects of an absolute target are put beside it, a program called obj takes the name of the directory of objects."
  },
  {
   "property": "C104",
   "status": "proved",
   "theorems": [
    "Verif.Temp.C104_dedent",
    "Verif.Temp.C104_blank",
    "Verif.Temp.C104_indent",
    "Verif.Temp.C104_file"
   ],
   "note": "For all texts and all names without a slash."
  },
  {
   "property": "C105",
   "status": "partial",
   "theorems": [
    "Verif.Temp.C105_partial",
    "Verif.Temp.C105_violated"
   ],
   "note": "Proved for delete=True. The default is delete=False and no caller in fbuild gives another, so that the directory stays until the next process or the end of a successful build."
  },
  {
   "property": "C106",
   "status": "partial",
   "theorems": [
    "Verif.Source.C106_text",
    "Verif.Source.C106_change",
    "Verif.Source.C106_partial",
    "Verif.Source.C106_python_violated"
   ],
   "note": "For every definition of the grammar of tokens in Props/Source.lean; the tokenizer is a parameter, BlockFinder is that of CPython 3.11. From Python 3.11 on inspect has an __all__ without re, and lib/fbuild/inspect.py raises NameError for every function."
  },
  {
   "property": "C107",
   "status": "partial",
   "theorems": [
    "Verif.Source.C107_partial",
    "Verif.Source.C107_violated"
   ],
   "note": "Proved if the logical line that begins in the line of the lambda ends with the statement. If a bracket in front of that line is open and the expression is in another line, the text is the line with lambda only."
  },
  {
   "property": "C108",
   "status": "proved",
   "theorems": [
    "Verif.Main.Target.C108_main",
    "Verif.Main.Target.C108_find",
    "Verif.Main.Target.C108_unknown",
    "Verif.Main.Target.C108_help"
   ],
   "note": "For all registrations and all attributes of the build script."
  },
  {
   "property": "C109",
   "status": "partial",
   "theorems": [
    "Verif.Java.C109_partial",
    "Verif.Java.C109_violated"
   ],
   "note": "Proved for paths without ] and newline that do not begin with a quote or RegularFileObject[. A path with ] is cut off."
  },
  {
   "property": "C11",
   "status": "proved",
   "theorems": [
    "Verif.DB.C11_raise_stores_nothing",
    "Verif.DB.C11_stored_results_stay"
   ],
   "note": ""
  },
  {
   "property": "C110",
   "status": "proved",
   "theorems": [
    "Verif.Java.C110_run"
   ],
   "note": "For at least one class path, none with a colon in it."
  },
  {
   "property": "C111",
   "status": "partial",
   "theorems": [
    "Verif.Java.C111_partial",
    "Verif.Java.C111_violated"
   ],
   "note": "Proved for at most one class path. -cp is given once for each, and the compiler uses the last one only; that the last -cp counts is the specification of javac that is assumed."
  },
  {
   "property": "C112",
   "status": "proved",
   "theorems": [
    "Verif.Checks.C112_statements",
    "Verif.Checks.C112_raises",
    "Verif.Checks.C112_returns",
    "Verif.Checks.C112_macros",
    "Verif.Checks.C112_header"
   ],
   "note": "For every compiler, which is a parameter: what comes of a text."
  },
  {
   "property": "C113",
   "status": "partial",
   "theorems": [
    "Verif.Checks.C113_partial",
    "Verif.Checks.C113_violated"
   ],
   "note": "Proved if no name has two characters. Such a name is unpacked into name and statement and is never in the result."
  },
  {
   "property": "C114",
   "status": "partial",
   "theorems": [
    "Verif.Calls.C114_partial",
    "Verif.Calls.C114_uptodate_partial",
    "Verif.Calls.C114_schedules_partial",
    "Verif.Calls.C114_succeeds_partial",
    "Verif.Calls.C114_after_partial",
    "Verif.Calls.Bad.C84_transitive_violated"
   ],
   "note": "Proved for every interleaving, for projects as in C84, if no source is given twice; C114_partial also says that the state after the build is again one to which C59, C84 and C114 apply. C114_succeeds_partial and C114_after_partial cover builds that fail, if every thread gets enough steps to finish. Not covered: a process that ends while a thread is compiling. The file of a call is stale for the reasons given for C84 (witness)."
  },
  {
   "property": "C115",
   "status": "proved",
   "theorems": [
    "Verif.Install.C115_returned",
    "Verif.Install.C115_same",
    "Verif.Install.C115_status",
    "Verif.Install.C115_progress",
    "Verif.Install.C115_ends",
    "Verif.Install.C115_denied"
   ],
   "note": "For every interleaving; the helper may be ended from outside at any moment, then with a nonzero status. The working directory is absolute."
  },
  {
   "property": "C116",
   "status": "partial",
   "theorems": [
    "Verif.Ocaml.C116_files",
    "Verif.Ocaml.C116_packages",
    "Verif.Ocaml.C116_options",
    "Verif.Ocaml.C116_includes_partial",
    "Verif.Ocaml.C116_switches_partial",
    "Verif.Ocaml.C116_nothing",
    "Verif.Ocaml.C116_link",
    "Verif.Ocaml.C116_modes",
    "Verif.Ocaml.C116_modules",
    "Verif.Ocaml.C116_profile_violated",
    "Verif.Ocaml.C116_interface_violated",
    "Verif.Ocaml.C116_order_violated"
   ],
   "note": "Proved for flags that are whole options and names that do not begin with a dash. Include directories are sorted, so the order of the caller is lost. Ocamlopt ignores profile_flags of the call. Ocamlopt compiles interfaces with an Ocamlc that has none of the options of the builder."
  },
  {
   "property": "C117",
   "status": "partial",
   "theorems": [
    "Verif.Small.C117_partial",
    "Verif.Small.C117_switches_partial",
    "Verif.Small.C117_compile",
    "Verif.Small.C117_argument_violated",
    "Verif.Small.C117_last_violated"
   ],
   "note": "Proved if no word is repeated in the flags, or if all flags are switches. A repeated word is left out: of -package a -package b there remains -package a b, and a switch that overrides another is lost."
  },
  {
   "property": "C118",
   "status": "proved",
   "theorems": [
    "Verif.Small.C118_command"
   ],
   "note": "For flags that are whole options and a source that does not begin with a dash."
  },
  {
   "property": "C119",
   "status": "partial",
   "theorems": [
    "Verif.Small.C119_llc_partial",
    "Verif.Small.C119_as_partial",
    "Verif.Small.C119_violated"
   ],
   "note": "Proved for objects that are made without flags. The flags an object is made with are never used."
  },
  {
   "property": "C12",
   "status": "proved",
   "theorems": [
    "Verif.DB.C12_prepare_raises",
    "Verif.DB.C12_missing_source"
   ],
   "note": ""
  },
  {
   "property": "C120",
   "status": "partial",
   "theorems": [
    "Verif.Small.C120_includes",
    "Verif.Small.C120_switches",
    "Verif.Small.C120_stdout",
    "Verif.Small.C120_includes_violated",
    "Verif.Small.C120_flags_violated"
   ],
   "note": "Proved for Felix.compile except that the flags of the builder are given twice. The include directories of a Flx are never used."
  },
  {
   "property": "C121",
   "status": "partial",
   "theorems": [
    "Verif.Small.C121_partial",
    "Verif.Small.C121_none_violated",
    "Verif.Small.C121_blank_violated"
   ],
   "note": "Proved for at least one flag with one blank between flags. If nothing is printed then a list with an empty flag is returned."
  },
  {
   "property": "C122",
   "status": "partial",
   "theorems": [
    "Verif.Record.C122_partial",
    "Verif.Record.C122_items",
    "Verif.Record.C122_name_violated",
    "Verif.Record.C122_del_violated"
   ],
   "note": "Proved for names that are not attributes of dict. del r.x always raises AttributeError."
  },
  {
   "property": "C123",
   "status": "partial",
   "theorems": [
    "Verif.Calls.C123_partial",
    "Verif.Calls.C123_build_partial",
    "Verif.Calls.C123_events",
    "Verif.Calls.C123_file",
    "Verif.Calls.C123_function",
    "Verif.Calls.C123_first",
    "Verif.Calls.Bad.C123_half_violated",
    "Verif.Calls.Bad.C123_caller_violated",
    "Verif.Calls.Bad.C59_crash_violated"
   ],
   "note": "Engine pickle. Proved if the calls whose files were written are not answered afterwards: nothing was saved yet, or a source of theirs was deleted with --delete-file, or the function with --delete-function if no other function reports its files. Without the deletions the next build may take half a file for the result. Scripts are well-behaved as in C59."
  },
  {
   "property": "C124",
   "status": "partial",
   "theorems": [
    "Verif.Platform.C124_declared_partial",
    "Verif.Platform.C124_key_partial",
    "Verif.Platform.C124_given",
    "Verif.Platform.C124_declared_violated",
    "Verif.Platform.C124_key_violated"
   ],
   "note": "Proved if no matching option is about an annotated parameter and none adds to a list of the caller. A library that is added by an option is linked but is no source of the call; a list of the caller that an option adds to is changed before the result is stored, so that the call is never found again."
  },
  {
   "property": "C125",
   "status": "proved",
   "theorems": [
    "Verif.Search.C125_whole",
    "Verif.Search.C125_compare"
   ],
   "note": "The law of update that hashlib documents is the hypothesis about the hash. Files that are changed while they are read are not covered."
  },
  {
   "property": "C126",
   "status": "partial",
   "theorems": [
    "Verif.Search.C126_exact_partial",
    "Verif.Search.C126_order",
    "Verif.Search.C126_nested_violated"
   ],
   "note": "Proved for patterns that are not in lists, and for all patterns without exclude. For patterns in a list exclude is not passed on. Patterns that end in ** and paths with newlines are left out as in C40 and C38."
  },
  {
   "property": "C127",
   "status": "proved",
   "theorems": [
    "Verif.Search.C127_exact",
    "Verif.Search.C127_once",
    "Verif.Search.C127_nothing"
   ],
   "note": "Trees without links, in which all directories can be read."
  },
  {
   "property": "C128",
   "status": "partial",
   "theorems": [
    "Verif.Msvc.C128_compile_partial",
    "Verif.Msvc.C128_includes_violated",
    "Verif.Msvc.C128_flags_violated",
    "Verif.Msvc.C128_macro_violated",
    "Verif.Msvc.C128_exe_violated"
   ],
   "note": "Proved that the options and no others are in the command, for flags of the call without repetition. Include directories and macros are sorted, so that a macro of the builder can win over that of the call; repeated flags are left out; the argument exe has no effect."
  },
  {
   "property": "C129",
   "status": "partial",
   "theorems": [
    "Verif.Gcc.Factory.C129_compile",
    "Verif.Gcc.Factory.C129_shared",
    "Verif.Gcc.Factory.C129_link_exe",
    "Verif.Gcc.Factory.C129_link_lib",
    "Verif.Gcc.Factory.C129_static_lib",
    "Verif.Gcc.Factory.C129_ar_violated",
    "Verif.Gcc.Factory.C129_link_flags_violated",
    "Verif.Gcc.Factory.C129_prefix_violated"
   ],
   "note": "Proved for compilations, for links of executables and of shared libraries, and for static libraries apart from the arguments ar and link_flags and empty prefixes and suffixes, which have no effect there."
  },
  {
   "property": "C13",
   "status": "partial",
   "theorems": [
    "Verif.DB.C13_check_partial",
    "Verif.DB.C13_recent_partial",
    "Verif.DB.C13_coarse_mtime_violated"
   ],
   "note": "false when two writes share a modification time and the first was checked (C13_coarse_mtime_violated); proved when the modification time determines the content, and within a second of it without that assumption"
  },
  {
   "property": "C130",
   "status": "proved",
   "theorems": [
    "Verif.Console.Terminal.C130_terminal",
    "Verif.Console.Terminal.C130_column",
    "Verif.Console.Terminal.C130_more",
    "Verif.Console.Terminal.C130_line",
    "Verif.Console.Terminal.C130_colors"
   ],
   "note": "For one job (threadcount 1); the order with several threads is in C52 and C53."
  },
  {
   "property": "C131",
   "status": "partial",
   "theorems": [
    "Verif.Platform.Guess.C131_kinds",
    "Verif.Platform.Guess.C131_posix",
    "Verif.Platform.Guess.C131_name",
    "Verif.Platform.Guess.C131_uname",
    "Verif.Platform.Guess.C131_python",
    "Verif.Platform.Guess.C131_version",
    "Verif.Platform.Guess.C131_unknown_partial",
    "Verif.Platform.Guess.C131_windows_violated",
    "Verif.Platform.Guess.C131_case_violated",
    "Verif.Platform.Guess.C131_mingw_violated"
   ],
   "note": "Proved except for three things: Python on Windows raises KeyError for an unknown system, a name given as an argument has to be in lower case, and 64-bit MinGW is not known."
  },
  {
   "property": "C132",
   "status": "partial",
   "theorems": [
    "Verif.Gcc.Project.C132_partial",
    "Verif.Gcc.Project.C132_scratch_partial",
    "Verif.Gcc.Project.C132_succeeds_partial",
    "Verif.Gcc.Project.C132_after_partial",
    "Verif.Gcc.Project.C132_all_partial",
    "Verif.Gcc.Project.C132_commands",
    "Verif.Gcc.Project.C132_unreadable",
    "Verif.Gcc.Project.Ex.C132_extension_violated",
    "Verif.Gcc.Project.Ex.C132_blank_violated",
    "Verif.Gcc.Project.Ex.C132_order_violated",
    "Verif.Gcc.Project.Ex.C132_needs_violated"
   ],
   "note": "Proved on the models of the database, the threads, the commands, the names of files and the dependency file together, for projects as in Project.Ok: relative sources with one extension, names that need no quoting, one set of options for all calls, a linker that reads what it is given only. Sources that differ in their extension only share an object file; a header with a blank in its name makes the build fail; a library that is built after the executable that needs it, and a library that another library needs, are not noticed."
  },
  {
   "property": "C133",
   "status": "partial",
   "theorems": [
    "Verif.DB.C133_partial",
    "Verif.DB.C133_violated",
    "Verif.DB.C133_branch_violated"
   ],
   "note": "False as stated, as C08: a callee that was called and stored with the new text hides the change from its other callers, and callees of a clean re-execution are not recorded. Proved for callees that every stored execution calls, if the last stored execution of the callee used another text."
  },
  {
   "property": "C134",
   "status": "partial",
   "theorems": [
    "Verif.DB.Engines.C134_partial",
    "Verif.DB.Ex.C134_external_violated",
    "Verif.DB.Ex.C134_overlap_violated",
    "Verif.DB.Ex.C134_dirty_violated",
    "Verif.DB.Ex.C134_killed_violated",
    "Verif.DB.Ex.C134_deleted_violated"
   ],
   "note": "A relation between the tables that every step preserves. Proved for histories without external files and killed processes in which sqlite stores every result and a function that is out of date is so for all its running calls. Each of these conditions is necessary: sqlite forgets external files of other calls, cannot store the first results of overlapping calls, keeps results of killed processes, and never reports that something was deleted."
  },
  {
   "property": "C135",
   "status": "partial",
   "theorems": [
    "Verif.Options.C135_partial",
    "Verif.Options.C135_dashes",
    "Verif.Options.C135_unknown",
    "Verif.Options.C135_ambiguous",
    "Verif.Options.C135_flag_argument",
    "Verif.Options.C135_letter",
    "Verif.Options.C135_wrong",
    "Verif.Options.C135_second_refused",
    "Verif.Options.Ex.C135_order_violated",
    "Verif.Options.Ex.C135_argument_violated"
   ],
   "note": "On a model of the algorithm of argparse of CPython 3.11, for any table of options with names of their own. Two documented uses are refused: targets in two places, and an argument that begins with a dash after a space."
  },
  {
   "property": "C136",
   "status": "partial",
   "theorems": [
    "Verif.Options.C136_partial",
    "Verif.Options.C136_below",
    "Verif.Options.Ex.C136_warnings_violated"
   ],
   "note": "From the words of the command line to the settings of the context, for the command lines of C135. --no-warnings works only if it is written in full, and a target of that name turns the warnings off."
  },
  {
   "property": "C137",
   "status": "partial",
   "theorems": [
    "Verif.Options.Shim.C137_partial",
    "Verif.Options.Shim.C137_many_partial",
    "Verif.Options.Shim.C137_whole",
    "Verif.Options.Shim.C137_shared_partial",
    "Verif.Options.Shim.C137_nargs",
    "Verif.Options.Shim.C137_defaults_violated",
    "Verif.Options.Shim.C137_flag_violated",
    "Verif.Options.Shim.C137_int_violated",
    "Verif.Options.Shim.C137_long_violated",
    "Verif.Options.Shim.C137_callback_violated",
    "Verif.Options.Shim.C137_metavar_violated",
    "Verif.Options.Shim.C137_keyword_violated",
    "Verif.Options.Shim.C137_hidden_violated"
   ],
   "note": "On models of optparse.Option and of the actions of argparse of CPython 3.11; Python's int, float and complex are parameters. Proved for options that store something, except: flags that are not used are False and not None, integers that begin with a zero, the type long, callbacks, flags with a metavar. Texts as defaults only where no conversion is needed. For options that share a destination if the first of them has the default: otherwise another default counts. Tuples become lists."
  },
  {
   "property": "C138",
   "status": "partial",
   "theorems": [
    "Verif.Java.C138_partial",
    "Verif.Java.C138_violated"
   ],
   "note": "For every program that saves as scala does. For a script outside of the build directory the path that is returned is beside the script, while the archive is saved beside the copy."
  },
  {
   "property": "C139",
   "status": "partial",
   "theorems": [
    "Verif.Java.C139_javac_partial",
    "Verif.Java.C139_scalac_partial",
    "Verif.Java.C139_below_partial",
    "Verif.Java.C139_call_partial",
    "Verif.Java.C139_root_violated",
    "Verif.Java.C139_messages"
   ],
   "note": "Proved without a buildroot in the call; one in the call ends up below that of the context. Flags that are themselves -d, -cp or -sourcepath are left out."
  },
  {
   "property": "C14",
   "status": "partial",
   "theorems": [
    "Verif.DB.C14_declared_partial",
    "Verif.DB.C14_external_violated"
   ],
   "note": "declared sources proved; false for external sources (C14_external_violated)"
  },
  {
   "property": "C140",
   "status": "partial",
   "theorems": [
    "Verif.Checks.Builder.C140_works",
    "Verif.Checks.Builder.C140_refused_partial",
    "Verif.Checks.Builder.C140_link_violated",
    "Verif.Checks.Builder.C140_guess_violated",
    "Verif.Checks.Builder.C140_cross",
    "Verif.Checks.Builder.C140_try",
    "Verif.Checks.Builder.C140_other",
    "Verif.Checks.Builder.C140_openmp"
   ],
   "note": "For all tools. The last check of the constructor lets the ExecutionError of a compiler or linker out, and guessing a compiler ends with it although another one works."
  },
  {
   "property": "C141",
   "status": "partial",
   "theorems": [
    "Verif.Config.Results.C141_equal_partial",
    "Verif.Config.Results.C141_answer",
    "Verif.Config.Results.C141_hash",
    "Verif.Config.Results.C141_hashed",
    "Verif.Config.Results.C141_repr_text",
    "Verif.Config.Results.C141_function_violated",
    "Verif.Config.Results.C141_repr_violated"
   ],
   "note": "Proved for all results but functions: no function is equal to any, and comparing two that return the same type raises AttributeError. repr of a struct raises NameError."
  },
  {
   "property": "C142",
   "status": "partial",
   "theorems": [
    "Verif.Config.Results.C142_function_partial",
    "Verif.Config.Results.C142_defaults",
    "Verif.Config.Results.C142_struct",
    "Verif.Config.Results.C142_variable",
    "Verif.Config.Results.C142_callback_violated",
    "Verif.Config.Results.C142_nested_violated"
   ],
   "note": "Read back from the lines of the program. For parameters whose types are texts; for those that are a Function the program is not C, or there is a TypeError."
  },
  {
   "property": "C143",
   "status": "partial",
   "theorems": [
    "Verif.Versions.C143_partial",
    "Verif.Versions.C143_gcc_violated",
    "Verif.Versions.C143_debian_violated",
    "Verif.Versions.C143_clang_violated",
    "Verif.Versions.C143_unread_violated"
   ],
   "note": "From the output of the tool to the outcome of the check, for versions of numbers. gcc from a packager with a blank in the name, such as Debian, is read wrongly; clang from a packager leads to an AttributeError, and output without a version to an IndexError or AttributeError."
  },
  {
   "property": "C144",
   "status": "partial",
   "theorems": [
    "Verif.Builders.Found.C144_search_partial",
    "Verif.Builders.Found.C144_remembered_violated",
    "Verif.Builders.Found.Ex.C144_removed_violated"
   ],
   "note": "Proved of a search that is made. find_program is cached and declares no files, so in every later history without a change of its text it returns what was found at first, also when that program is gone."
  },
  {
   "property": "C145",
   "status": "partial",
   "theorems": [
    "Verif.Ocaml.Both.C145_one_partial",
    "Verif.Ocaml.Both.C145_pack_partial",
    "Verif.Ocaml.Both.C145_both_partial",
    "Verif.Ocaml.Both.C145_link_partial",
    "Verif.Ocaml.Both.C145_fails",
    "Verif.Ocaml.Both.C145_pack_violated",
    "Verif.Ocaml.Both.C145_includes_violated",
    "Verif.Ocaml.Both.C145_compile_violated",
    "Verif.Ocaml.Both.C145_objects_violated",
    "Verif.Ocaml.Both.C145_root_violated"
   ],
   "note": "For all compilers that make and link files by kind; paths stand for the files there. Objects given together with pack are dropped, a packed object with a buildroot is put below that of the context, linking without includes is a TypeError, Ocaml.compile is always a NameError, and the objects of Ocaml.build_objects cannot be linked by it."
  },
  {
   "property": "C146",
   "status": "partial",
   "theorems": [
    "Verif.DB.Pickling.C146_pickle_partial",
    "Verif.DB.Pickling.C146_removed_class",
    "Verif.DB.Pickling.C146_sqlite_partial",
    "Verif.DB.Pickling.C146_lost_violated",
    "Verif.DB.Pickling.C146_module_violated",
    "Verif.DB.Pickling.C146_sqlite_violated"
   ],
   "note": "On a stack machine for pickle; values are trees. Pickle engine: one value that cannot be pickled and the results of the whole build are lost; if the module of a class is gone the database cannot be opened. Sqlite engine: a class in stored arguments that is gone makes every call of the function raise."
  },
  {
   "property": "C147",
   "status": "partial",
   "theorems": [
    "Verif.Execute.Procs.C147_limit_partial",
    "Verif.Execute.Procs.C147_armed",
    "Verif.Execute.Procs.C147_kills",
    "Verif.Execute.Procs.C147_other_violated",
    "Verif.Execute.Procs.C147_left_violated"
   ],
   "note": "An invariant over all steps of the processes and the two threads, as long as the command has not been waited for. If the timer runs after that, kill reaches nothing although processes of the group are left, or a process that has got the number of the command."
  },
  {
   "property": "C148",
   "status": "proved",
   "theorems": [
    "Verif.Path.Operators.C148_div",
    "Verif.Path.Operators.C148_parent",
    "Verif.Path.Operators.C148_back",
    "Verif.Path.Operators.C148_ext",
    "Verif.Path.Operators.C148_target"
   ],
   "note": "POSIX. What a path leads to is stated for an arbitrary file system. Paths given as lists are left out."
  },
  {
   "property": "C149",
   "status": "partial",
   "theorems": [
    "Verif.Ocaml.Rebuild.C149_byte_partial",
    "Verif.Ocaml.Rebuild.C149_native_partial",
    "Verif.Ocaml.Rebuild.C149_native_interface_partial",
    "Verif.Ocaml.Rebuild.C149_written_partial",
    "Verif.Ocaml.Rebuild.C149_interface",
    "Verif.Ocaml.Rebuild.C149_link",
    "Verif.Ocaml.Rebuild.C149_library",
    "Verif.Ocaml.Rebuild.C149_added_violated",
    "Verif.Ocaml.Rebuild.C149_written_violated"
   ],
   "note": "If no file appears or disappears. An interface that is added beside an implementation is not noticed by what uses the module. The .cmi file that is made for an implementation is not reported if there is an interface in the source tree that was not given to be compiled."
  },
  {
   "property": "C15",
   "status": "partial",
   "theorems": [
    "Verif.Calls.C15_partial",
    "Verif.Calls.C15_stored",
    "Verif.Calls.C15_raise_violated",
    "Verif.Calls.C15_clean_violated",
    "Verif.Calls.C15_threads_violated"
   ],
   "note": "Proved for executions in which no call raises, for functions that were new or stale when called; false after an exception inside, for functions whose record is current, and with two threads (witnesses)."
  },
  {
   "property": "C150",
   "status": "partial",
   "theorems": [
    "Verif.Msvc.Shown.C150_compile_partial",
    "Verif.Msvc.Shown.C150_fails_partial",
    "Verif.Msvc.Shown.C150_quiet_partial",
    "Verif.Msvc.Shown.C150_dll_partial",
    "Verif.Msvc.Shown.C150_link",
    "Verif.Msvc.Shown.C150_stripped",
    "Verif.Msvc.Shown.C150_twice_violated",
    "Verif.Msvc.Shown.C150_name_violated",
    "Verif.Msvc.Shown.C150_quieter_violated",
    "Verif.Msvc.Shown.C150_dll_violated",
    "Verif.Msvc.Shown.C150_bytes_violated"
   ],
   "note": "Proved at the usual level of messages. What the linker says about a shared library that it cannot link is not shown; in verbose builds output is shown twice; quieter counts as 1; output that cannot be decoded makes a successful call raise."
  },
  {
   "property": "C151",
   "status": "partial",
   "theorems": [
    "Verif.Gcc.Made.C151_made",
    "Verif.Gcc.Made.C151_default_partial",
    "Verif.Gcc.Made.C151_flags",
    "Verif.Gcc.Made.C151_refused",
    "Verif.Gcc.Made.C151_call_violated"
   ],
   "note": "For all compilers. Flags for debugging, profiling and optimizing that are only asked for in a call are never checked: the compiler is taken, and the call fails."
  },
  {
   "property": "C152",
   "status": "partial",
   "theorems": [
    "Verif.Execute.Wait.C152_outcome",
    "Verif.Execute.Wait.C152_limit",
    "Verif.Execute.Wait.C152_status_partial",
    "Verif.Execute.Wait.C152_forever_partial",
    "Verif.Execute.Wait.C152_check_partial",
    "Verif.Execute.Wait.C152_late_violated",
    "Verif.Execute.Wait.C152_race_violated",
    "Verif.Execute.Wait.C152_raise_violated",
    "Verif.Execute.Wait.C152_stopped_violated"
   ],
   "note": "From Python 3.5 on the status of every process that has not ended at the first look is lost: it is given -9 when the time is over. Before, the same happens in a race with the sleep. On a slow machine ValueError is raised and nothing is killed. Without a limit, a process that is stopped counts as ended."
  },
  {
   "property": "C153",
   "status": "partial",
   "theorems": [
    "Verif.Text.Regex.C153_partial",
    "Verif.Text.Regex.C153_ends_violated"
   ],
   "note": "For sources with line ends of POSIX; others are changed to these."
  },
  {
   "property": "C154",
   "status": "partial",
   "theorems": [
    "Verif.Config.Get.C154_partial",
    "Verif.Config.Get.C154_none_violated"
   ],
   "note": "If the attributes lead to None the default is returned, although they exist."
  },
  {
   "property": "C155",
   "status": "partial",
   "theorems": [
    "Verif.Main.Hooks.C155_hook",
    "Verif.Main.Hooks.C155_parse",
    "Verif.Main.Hooks.C155_raises",
    "Verif.Main.Hooks.C155_import_partial",
    "Verif.Main.Hooks.C155_import_violated"
   ],
   "note": "If a script cannot be imported and an argument is one that it would have added, the error is that of the parser."
  },
  {
   "property": "C156",
   "status": "partial",
   "theorems": [
    "Verif.FileOps.C156_made",
    "Verif.FileOps.C156_can_partial",
    "Verif.FileOps.C156_log_violated",
    "Verif.FileOps.C156_tmp_violated"
   ],
   "note": "On a tree without links. The directory of the log is not made, so that with a log in a new directory no build begins; nor if a file has the name of the temporary directory, as removing it fails silently."
  },
  {
   "property": "C157",
   "status": "partial",
   "theorems": [
    "Verif.Platform.Names.C157_names",
    "Verif.Platform.Names.C157_kind",
    "Verif.Platform.Names.C157_found",
    "Verif.Platform.Names.C157_variable_partial",
    "Verif.Platform.Names.C157_variable_violated"
   ],
   "note": "The platform is one of the table or empty; what linkers look for is taken from their manuals. On Cygwin the variable is LD_LIBRARY_PATH, while Windows looks at PATH."
  },
  {
   "property": "C158",
   "status": "partial",
   "theorems": [
    "Verif.Ocaml.Lex.C158_lex",
    "Verif.Ocaml.Lex.C158_yacc",
    "Verif.Ocaml.Lex.C158_distinct_partial",
    "Verif.Ocaml.Lex.C158_same_violated",
    "Verif.Ocaml.Lex.C158_root_violated"
   ],
   "note": "For sources called .mll and .mly and tools as their manuals describe them. x.mll and x.mly give the same x.ml, and so do a source and a source at the same place in the build directory."
  },
  {
   "property": "C159",
   "status": "partial",
   "theorems": [
    "Verif.Ocaml.Made.C159_bytecode",
    "Verif.Ocaml.Made.C159_native",
    "Verif.Ocaml.Made.C159_both",
    "Verif.Ocaml.Made.C159_refused_partial",
    "Verif.Ocaml.Made.C159_link_violated",
    "Verif.Ocaml.Made.C159_profiler_violated",
    "Verif.Ocaml.Made.C159_version_violated"
   ],
   "note": "For programs whose versions are numbers. The last check lets the ExecutionError of a compiler or linker out; Ocaml needs ocamlcp, which it does not use; Ocamlopt does not require the version of the Ocamlc that it makes."
  },
  {
   "property": "C16",
   "status": "partial",
   "theorems": [
    "Verif.Calls.C16_partial",
    "Verif.Calls.C16_hit_violated",
    "Verif.Calls.C16_deleted_violated"
   ],
   "note": "Proved for files reported by calls executed inside and still existing; false for calls inside answered from the database and for deleted files (witnesses)."
  },
  {
   "property": "C160",
   "status": "partial",
   "theorems": [
    "Verif.ConfigTools.C160_llvm_partial",
    "Verif.ConfigTools.C160_sdl",
    "Verif.ConfigTools.C160_obj_violated",
    "Verif.ConfigTools.C160_stale_violated",
    "Verif.ConfigTools.C160_package_violated"
   ],
   "note": "obj_root asks for the directory of the sources. The answers of LlvmConfig and PkgConfig are cached without the program as a source, so that those of an older program are returned."
  },
  {
   "property": "C161",
   "status": "partial",
   "theorems": [
    "Verif.Msvc.C161_static_partial",
    "Verif.Msvc.C161_exe_partial",
    "Verif.Msvc.C161_shared_partial",
    "Verif.Msvc.C161_empty_violated",
    "Verif.Msvc.C161_names_violated",
    "Verif.Msvc.C161_libs_violated"
   ],
   "note": "Proved for the words the programs read and the file they write, for flags that are options and objects that are not. Prefix and suffix of static libraries and the program given are ignored, empty prefixes and suffixes are replaced by those of the machine fbuild runs on, and libraries do not get to lib."
  },
  {
   "property": "C162",
   "status": "proved",
   "theorems": [
    "Verif.Config.C162_header",
    "Verif.Config.C162_macro",
    "Verif.Config.C162_missing"
   ],
   "note": "For a model of the preprocessor that reads #include, #ifndef, #error and #endif; a program that is compiled is run without failure. For tests without a program or output of their own."
  },
  {
   "property": "C163",
   "status": "proved",
   "theorems": [
    "Verif.Config.C163_type",
    "Verif.Config.C163_int_type"
   ],
   "note": "For a model of C that reads the lines of these programs: typedef, a struct with a char before the member, offsetof, sizeof and the comparison of converted numbers. Alignment and size are positive and fit into an int of 32 bits. For tests without a program of their own."
  },
  {
   "property": "C164",
   "status": "partial",
   "theorems": [
    "Verif.Made.C164_cl_partial",
    "Verif.Made.C164_flags",
    "Verif.Made.C164_ghc",
    "Verif.Made.C164_java_partial",
    "Verif.Made.C164_scala_partial",
    "Verif.Made.C164_refused",
    "Verif.Made.C164_other",
    "Verif.Made.C164_unasked_violated",
    "Verif.Made.C164_felix_violated"
   ],
   "note": "Proved that the calls are accepted for cl, ghc, javac and scala once the object is made, and that nothing but ConfigFailed is raised. False the other way round: cl, javac and scala are refused if the program does not know the flags for debugging or optimizing, even if nobody asks for these (the flag -optimise is gone from newer compilers of Scala). False for Felix: a program that always fails is taken."
  },
  {
   "property": "C165",
   "status": "partial",
   "theorems": [
    "Verif.Java.C165_home_partial",
    "Verif.Java.C165_none",
    "Verif.Java.C165_modern_violated",
    "Verif.Java.C165_nested_violated"
   ],
   "note": "Proved for output with a line [Opened HOME/jre/lib..., if HOME has no /jre/lib in it. False for a home directory below another jre/lib, and for Java 9 and later, whose output has another form, so that the answer is None."
  },
  {
   "property": "C166",
   "status": "partial",
   "theorems": [
    "Verif.Config.Equal.C166_equal_partial",
    "Verif.Config.Equal.C166_hash",
    "Verif.Config.Equal.C166_template_violated",
    "Verif.Config.Equal.C166_function_violated",
    "Verif.Config.Equal.C166_list_violated"
   ],
   "note": "Proved for all tests but those of templates and those with types that are Function objects; equal tests have the same hash in all cases. False for templates: the types they are tested with are not compared. With Function objects, comparing raises AttributeError. A function test with a list as default_args has no hash."
  },
  {
   "property": "C167",
   "status": "proved",
   "theorems": [
    "Verif.Functools.Import.C167_function",
    "Verif.Functools.Import.C167_module",
    "Verif.Functools.Import.C167_call",
    "Verif.Functools.Import.C167_missing"
   ],
   "note": "For a model of __import__ that gives the module itself if the list of names is not empty, and the package otherwise. That importing a module runs it, and can raise anything, is left out."
  },
  {
   "property": "C168",
   "status": "proved",
   "theorems": [
    "Verif.Path.C168_lines",
    "Verif.Path.C168_newlines"
   ],
   "note": "For files whose lines all end in the same way. How Python reads lines from a text file is modelled; decoding is left out."
  },
  {
   "property": "C17",
   "status": "partial",
   "theorems": [
    "Verif.DB.C17_delete_function",
    "Verif.DB.C17_delete_file",
    "Verif.Main.C17_command",
    "Verif.DB.C17_sqlite_report_violated",
    "Verif.DB.C17_sqlite_file_violated"
   ],
   "note": "proved for the cache and pickle engine; false for the sqlite engine (witnesses)"
  },
  {
   "property": "C18",
   "status": "proved",
   "theorems": [
    "Verif.DB.Pickle.C18_not_torn",
    "Verif.DB.Pickle.C18_next_start",
    "Verif.DB.Pickle.C18_sessions"
   ],
   "note": ""
  },
  {
   "property": "C19",
   "status": "partial",
   "theorems": [
    "Verif.DB.Pickle.C19_on_disk_partial",
    "Verif.DB.Pickle.C19_first_save_partial",
    "Verif.DB.Pickle.C19_lost_violated"
   ],
   "note": "false: killed between the two renames the next start finds no state file"
  },
  {
   "property": "C20",
   "status": "partial",
   "theorems": [
    "Verif.DB.Pickle.C20_connect_partial",
    "Verif.DB.Pickle.C20_moved",
    "Verif.DB.Pickle.C20_crash_partial",
    "Verif.DB.Pickle.C20_crash_violated",
    "Verif.DB.SqliteVersion.C20_sqlite_partial",
    "Verif.DB.SqliteVersion.C20_sqlite_crash_partial",
    "Verif.DB.SqliteVersion.C20_sqlite_crash_violated"
   ],
   "note": "False for both engines: killed between saving and removing the old tables, they are used, whatever they are; proved for every other crash point."
  },
  {
   "property": "C21",
   "status": "proved",
   "theorems": [
    "Verif.DB.Pickle.C21_survives"
   ],
   "note": ""
  },
  {
   "property": "C22",
   "status": "partial",
   "theorems": [
    "Verif.DB.C22_cache_completes",
    "Verif.DB.C22_sqlite_violated",
    "Verif.DB.C22_sqlite_edit_violated"
   ],
   "note": "proved for the cache and pickle engine; false for the sqlite engine (witnesses)"
  },
  {
   "property": "C23",
   "status": "partial",
   "theorems": [
    "Verif.DB.C23_interleaved_partial",
    "Verif.DB.C23_overlap_violated"
   ],
   "note": "false when equal calls overlap (C23_overlap_violated)"
  },
  {
   "property": "C24",
   "status": "partial",
   "theorems": [
    "Verif.Functools.C24_same_key_partial",
    "Verif.Functools.C24_method_partial",
    "Verif.Functools.C24_persistent_violated"
   ],
   "note": "proved for functions and bound methods whose parameters other than **kwargs are not called kw or kwargs; false for the constructors of PersistentObject (C24_persistent_violated)"
  },
  {
   "property": "C25",
   "status": "partial",
   "theorems": [
    "Verif.Functools.C25_rejects_partial",
    "Verif.Functools.C25_surplus_violated",
    "Verif.Functools.C25_kw_violated",
    "Verif.Functools.C25_self_violated"
   ],
   "note": "proved for functions without keyword-only parameters or with *args; false otherwise (C25_surplus_violated), for a parameter called kw (C25_kw_violated) and for a keyword self of a method (C25_self_violated)"
  },
  {
   "property": "C26",
   "status": "proved",
   "theorems": [
    "Verif.Sched.C26_map",
    "Verif.Sched.C26_nested"
   ],
   "note": ""
  },
  {
   "property": "C27",
   "status": "proved",
   "theorems": [
    "Verif.Sched.C27_at_most_once",
    "Verif.Sched.C27_exactly_once"
   ],
   "note": ""
  },
  {
   "property": "C28",
   "status": "proved",
   "theorems": [
    "Verif.Sched.C28_dependencies_first"
   ],
   "note": ""
  },
  {
   "property": "C29",
   "status": "proved",
   "theorems": [
    "Verif.Sched.C29_order"
   ],
   "note": ""
  },
  {
   "property": "C30",
   "status": "partial",
   "theorems": [
    "Verif.Sched.C30_finitely_many_steps",
    "Verif.Sched.C30_finishes_partial",
    "Verif.Sched.C30_can_finish_partial",
    "Verif.Sched.C30_no_deadlock_partial",
    "Verif.Sched.Ex.C30_main_interruptible_violated"
   ],
   "note": "proved for main programs that do not use interruptible outside of tasks; false otherwise (C30_main_interruptible_violated)"
  },
  {
   "property": "C31",
   "status": "partial",
   "theorems": [
    "Verif.Sched.C31_loop_partial",
    "Verif.Sched.Ex.C31_names_violated"
   ],
   "note": "proved: DependencyLoop exactly for loops; false: the exception names only sources that depend on each other directly, none for a loop of three (C31_names_violated)"
  },
  {
   "property": "C32",
   "status": "proved",
   "theorems": [
    "Verif.Sched.C32_not_normal",
    "Verif.Sched.C32_own_exception",
    "Verif.Sched.C32_map"
   ],
   "note": ""
  },
  {
   "property": "C33",
   "status": "partial",
   "theorems": [
    "Verif.Sched.C33_dependents_partial",
    "Verif.Sched.Ex.C33_violated"
   ],
   "note": "false: tasks already in the ready queue are started after map has raised (C33_violated); proved for tasks that depend on the failed task"
  },
  {
   "property": "C34",
   "status": "partial",
   "theorems": [
    "Verif.Sched.C34_one_worker_partial",
    "Verif.Sched.Ex.C34_violated"
   ],
   "note": "proved while the main thread does not use interruptible; false otherwise: it releases the lock of a worker (C34_violated)"
  },
  {
   "property": "C35",
   "status": "partial",
   "theorems": [
    "Verif.Sched.C35_shutdown_partial",
    "Verif.Sched.C35_no_deadlock_partial",
    "Verif.Sched.Ex.C35_violated"
   ],
   "note": "proved when no evaluation was left by the exception of a task; false otherwise: a worker inside _evaluate takes the None of shutdown and later waits forever (C35_violated)"
  },
  {
   "property": "C36",
   "status": "partial",
   "theorems": [
    "Verif.Rpc.C36_in_order",
    "Verif.Rpc.C36_own_answer_partial",
    "Verif.Rpc.C36_accepted",
    "Verif.Rpc.C36_start_race_violated",
    "Verif.Rpc.C36_exception_value_violated"
   ],
   "note": "order and ownership of answers proved; false: a call right after start can be refused (C36_start_race_violated), a returned exception object is raised (C36_exception_value_violated)"
  },
  {
   "property": "C37",
   "status": "partial",
   "theorems": [
    "Verif.Rpc.C37_call_returns_partial",
    "Verif.Rpc.C37_join_returns_partial",
    "Verif.Rpc.C37_fatal_violated",
    "Verif.Rpc.C37_double_join_violated"
   ],
   "note": "false: after a BaseException of the handler pending callers wait forever (C37_fatal_violated), two joins block all calls (C37_double_join_violated); proved without these"
  },
  {
   "property": "C38",
   "status": "partial",
   "theorems": [
    "Verif.Fnmatch.C38_parts_partial",
    "Verif.Fnmatch.C38_text_partial",
    "Verif.Fnmatch.C38_newline_partial",
    "Verif.Fnmatch.C38_trailing_newline_violated",
    "Verif.Fnmatch.C38_newline_any_violated",
    "Verif.Fnmatch.C38_reversed_range_violated"
   ],
   "note": "proved for names without newlines and patterns without reversed ranges; false otherwise (witnesses)"
  },
  {
   "property": "C39",
   "status": "partial",
   "theorems": [
    "Verif.Fnmatch.C39_exact_partial",
    "Verif.Fnmatch.C39_newline_violated"
   ],
   "note": "exactly s and s followed by a newline match; the latter is wrong (C39_newline_violated)"
  },
  {
   "property": "C40",
   "status": "partial",
   "theorems": [
    "Verif.Glob.C40_sound_partial",
    "Verif.Glob.C40_picked",
    "Verif.Glob.C40_complete",
    "Verif.Glob.C40_missing_directory_violated"
   ],
   "note": "proved except for patterns that end in **, where a directory that does not exist is returned (C40_missing_directory_violated); names without newlines, patterns without reversed ranges, no symbolic links"
  },
  {
   "property": "C41",
   "status": "partial",
   "theorems": [
    "Verif.Path.C41_below_partial",
    "Verif.Path.C41_idempotent",
    "Verif.Path.C41_removeroot_partial",
    "Verif.Path.C41_distinct_partial",
    "Verif.Path.C41_below_violated",
    "Verif.Path.C41_removeroot_violated",
    "Verif.Path.C41_distinct_violated"
   ],
   "note": "idempotence proved for all paths; the rest proved for relative paths that do not start with the characters of the root, false otherwise (witnesses)"
  },
  {
   "property": "C42",
   "status": "partial",
   "theorems": [
    "Verif.Path.C42_replaceext_partial",
    "Verif.Path.C42_override_partial",
    "Verif.Path.C42_replaceexts",
    "Verif.Path.C42_violated"
   ],
   "note": "proved for extensions with one dot and names that are not only dots; false otherwise (C42_violated)"
  },
  {
   "property": "C43",
   "status": "proved",
   "theorems": [
    "Verif.Path.C43_splitall"
   ],
   "note": ""
  },
  {
   "property": "C44",
   "status": "partial",
   "theorems": [
    "Verif.Main.C44_built_partial",
    "Verif.Main.C44_alone",
    "Verif.Main.C44_misplaced",
    "Verif.Main.C44_plain",
    "Verif.Main.C44_configure_violated",
    "Verif.Main.C44_twice_violated"
   ],
   "note": "proved: everything asked for, and a build, before install; false: with configure the build comes first (C44_configure_violated), install given twice (C44_twice_violated)"
  },
  {
   "property": "C45",
   "status": "partial",
   "theorems": [
    "Verif.Install.C45_below_partial",
    "Verif.Install.C45_violated"
   ],
   "note": "proved for directories without two slashes in front, names that are not absolute, and no ..; false otherwise (C45_violated)"
  },
  {
   "property": "C46",
   "status": "partial",
   "theorems": [
    "Verif.Install.C46_copy_partial",
    "Verif.Install.C46_link_partial",
    "Verif.Install.C46_all_partial",
    "Verif.Install.C46_missing",
    "Verif.Install.C46_perms_violated",
    "Verif.Install.C46_link_perms_violated",
    "Verif.Install.C46_dangling_violated",
    "Verif.Install.C46_directory_violated"
   ],
   "note": "proved without permissions, and targets that are not dangling links; permissions are always given to the source (C46_perms_violated), dangling links are not replaced (C46_dangling_violated), and a directory at the target gets the file under another name (C46_directory_violated)"
  },
  {
   "property": "C47",
   "status": "proved",
   "theorems": [
    "Verif.Platform.C47_match"
   ],
   "note": "the matcher as a list of names"
  },
  {
   "property": "C48",
   "status": "partial",
   "theorems": [
    "Verif.Platform.C48_result_partial",
    "Verif.Platform.C48_caller_partial",
    "Verif.Platform.C48_grows_violated",
    "Verif.Platform.C48_argument_violated",
    "Verif.Platform.C48_set_violated",
    "Verif.Platform.C48_text_violated"
   ],
   "note": "result proved when no list object is given twice and no set is added to; key+ changes the caller's lists and the option lists in place, so a second call gives other values; key+ on a set raises; key- with a text on a list removes substrings"
  },
  {
   "property": "C49",
   "status": "partial",
   "theorems": [
    "Verif.Builders.C49_partial",
    "Verif.Builders.C49_words_partial",
    "Verif.Builders.C49_text_violated"
   ],
   "note": "proved unless a number is compared with a word, which gives a TypeError instead of ConfigFailed"
  },
  {
   "property": "C50",
   "status": "partial",
   "theorems": [
    "Verif.Builders.C50_partial",
    "Verif.Builders.C50_tried",
    "Verif.Builders.C50_windows_partial",
    "Verif.Builders.C50_current_violated",
    "Verif.Builders.C50_windows_violated"
   ],
   "note": "proved when no name is itself a file; otherwise a file in the current directory is taken before the search directories. The cache around the function is not part of this statement"
  },
  {
   "property": "C51",
   "status": "partial",
   "theorems": [
    "Verif.Execute.C51_returned",
    "Verif.Execute.C51_raised_partial",
    "Verif.Execute.C51_reasons",
    "Verif.Execute.C51_killed",
    "Verif.Execute.C51_timer_stopped",
    "Verif.Execute.C51_race_violated"
   ],
   "note": "a normal return implies the condition; the converse is proved when the timer did not go off; a timer that goes off after the child exited with 0 makes execute raise"
  },
  {
   "property": "C52",
   "status": "partial",
   "theorems": [
    "Verif.Console.C52_all",
    "Verif.Console.C52_order_partial",
    "Verif.Console.C52_nested_violated",
    "Verif.Console.C52_unbuffered_violated"
   ],
   "note": "Every message is written exactly once for all interleavings of nested programs; order per thread is proved for programs without nested contexts; nested contexts and unbuffered writes break the order (witnesses)."
  },
  {
   "property": "C53",
   "status": "partial",
   "theorems": [
    "Verif.Console.C53_partial",
    "Verif.Console.C53_violated"
   ],
   "note": "Proved for the first line of a log_from_thread context when all output goes through the lock; from the second line on the buffer is gone and lines mix (witness)."
  },
  {
   "property": "C54",
   "status": "partial",
   "theorems": [
    "Verif.Gcc.C54_order_partial",
    "Verif.Gcc.C54_total",
    "Verif.Gcc.C54_name_violated",
    "Verif.Gcc.C54_cycle_violated"
   ],
   "note": "Proved for acyclic libraries with distinct names; two libraries with the same file name lose one of them and a cycle is a RecursionError at every limit (witnesses)."
  },
  {
   "property": "C55",
   "status": "partial",
   "theorems": [
    "Verif.Gcc.C55_once_partial",
    "Verif.Gcc.C55_order_violated"
   ],
   "note": "Every non-empty directory once and no other is proved; the order is the sorted one instead of the given one (witness)."
  },
  {
   "property": "C56",
   "status": "partial",
   "theorems": [
    "Verif.Gcc.C56_partial",
    "Verif.Gcc.C56_blank_violated",
    "Verif.Gcc.C56_target_violated",
    "Verif.Gcc.C56_dollar_violated"
   ],
   "note": "Proved for names that need no quoting, for all placements of line breaks; names with blanks or dollars are misread, and a target with a blank is an error (witnesses)."
  },
  {
   "property": "C57",
   "status": "partial",
   "theorems": [
    "Verif.Persist.C57_refl",
    "Verif.Persist.C57_symm_partial",
    "Verif.Persist.C57_trans_partial",
    "Verif.Persist.C57_symm_violated",
    "Verif.Persist.C57_trans_violated"
   ],
   "note": "Reflexivity for all values; symmetry and transitivity when all objects of a class have the same attributes; both fail otherwise (witnesses)."
  },
  {
   "property": "C58",
   "status": "partial",
   "theorems": [
    "Verif.Alias.C58_partial",
    "Verif.Alias.C58_sqlite_partial",
    "Verif.Alias.C58_found_partial",
    "Verif.Alias.C58_rerun_partial",
    "Verif.Alias.C58_function_violated",
    "Verif.Alias.C58_function_lost_violated",
    "Verif.Alias.C58_caller_violated"
   ],
   "note": "False as stated: if the function changes its argument every engine stores the result under the changed value; with cache and pickle a change by the caller after the call does the same. Proved for every history in which no object is changed while it is an argument of a running call and, for cache and pickle, no stored object is changed."
  },
  {
   "property": "C59",
   "status": "partial",
   "theorems": [
    "Verif.Calls.C59_partial",
    "Verif.Calls.C59_empty_partial",
    "Verif.Calls.Bad.C59_nested_violated",
    "Verif.Calls.Bad.C59_function_violated",
    "Verif.Calls.Bad.C59_failed_violated",
    "Verif.Calls.Bad.C59_shared_violated",
    "Verif.Calls.Bad.C59_crash_violated",
    "Verif.Calls.Bad.C59_edited_violated",
    "Verif.Calls.Bad.C59_deleted_violated",
    "Verif.Calls.C59_sqlite_partial",
    "Verif.Calls.Header.C59_sqlite_header_violated"
   ],
   "note": "C59_partial: for every history of builds, edits and new processes of a well-behaved script, a build returns the value and leaves the files of a build in which every call runs its function; C59_empty_partial compares with an empty database. WellBehaved is stated on runs without a database and is stronger than the property: a function covers the sources of the functions it calls, functions called by cached functions keep their texts, and write files only if the caller reports these (as build_objects does), each output belongs to one call, a failing function writes nothing, reported sources are not removed, outputs are not edited. The violations show a script for each of these conditions. One thread; C59_partial is for the engines cache and pickle, C59_sqlite_partial for sqlite, where functions must report no files (witness: of two units with an edited reported header only one is compiled again); killed processes are in C123."
  },
  {
   "property": "C60",
   "status": "partial",
   "theorems": [
    "Verif.Text.C60_file_partial",
    "Verif.Text.C60_header_partial",
    "Verif.Text.C60_substitute_partial",
    "Verif.Text.C60_substitute_one_partial",
    "Verif.Text.C60_empty_violated",
    "Verif.Text.C60_substitute_marked_partial",
    "Verif.Text.C60_newlines_violated",
    "Verif.Text.C60_zero_violated",
    "Verif.Text.C60_twice_violated"
   ],
   "note": "autoconf_config_file and autoconf_config_header: for every text without carriage returns, the unique cut into occurrences and other characters, the file written, and no file if a name is undefined. substitute: one pattern, patterns that do not occur, or several patterns marked by a character in front of them. False for carriage returns, for definitions with value 0, and for other patterns in substitute (witnesses). regex_substitute is not modelled."
  },
  {
   "property": "C61",
   "status": "partial",
   "theorems": [
    "Verif.DB.C61_failed_store_violated",
    "Verif.DB.C61_sqlite_partial"
   ],
   "note": "False for the cache and pickle engine (witness). Proved for the sqlite engine under the conditions of C66."
  },
  {
   "property": "C62",
   "status": "partial",
   "theorems": [
    "Verif.DB.C62_declared",
    "Verif.DB.C62_external_partial",
    "Verif.DB.C05_sqlite_violated"
   ],
   "note": "Declared destinations: proved. Reported destinations: proved if the file is not a source of the call too and is not checked while it has another content; otherwise false (witness)."
  },
  {
   "property": "C63",
   "status": "partial",
   "theorems": [
    "Verif.Main.C63_failed_partial",
    "Verif.Main.C63_reports",
    "Verif.Main.C44_twice_violated"
   ],
   "note": "proved when install is asked for once; false for install given twice, where the first installation precedes the build"
  },
  {
   "property": "C64",
   "status": "partial",
   "theorems": [
    "Verif.Alias.C64_hit_partial",
    "Verif.Alias.C64_result_violated"
   ],
   "note": "False for cache and pickle if the caller changes the result object (witness). Proved for every history in which nobody changes stored objects or arguments of running calls; files and digests are parameters."
  },
  {
   "property": "C65",
   "status": "proved",
   "theorems": [
    "Verif.Path.C65_addprefix"
   ],
   "note": ""
  },
  {
   "property": "C66",
   "status": "partial",
   "theorems": [
    "Verif.DB.C66_hit_sound_partial",
    "Verif.DB.C66_edited_source_partial",
    "Verif.DB.C66_other_text_partial",
    "Verif.DB.C66_rollback_violated"
   ],
   "note": "For every history with the sqlite engine, crashes included, in which no store raised between the preparation of a call and the storing of its result, equal calls do not overlap, and the modification time determines the content. Without the first condition it is false (C66_rollback_violated): the ids of rolled back rows are given to other files."
  },
  {
   "property": "C67",
   "status": "partial",
   "theorems": [
    "Verif.Naming.C67_names_partial",
    "Verif.Naming.C67_hit_partial",
    "Verif.Naming.C67_super_violated",
    "Verif.Naming.C67_same_name_violated",
    "Verif.Naming.C67_module_violated"
   ],
   "note": "Proved for scripts that are Tidy: no two functions or classes with the same module and name, no overriding of a cached method by a class of the same module, no module named like a class. Each condition is needed: a method that overrides one of the same module and calls super returns the result of the base class on the second call (witnesses)."
  },
  {
   "property": "C68",
   "status": "partial",
   "theorems": [
    "Verif.Naming.C68_found_partial",
    "Verif.Naming.C68_super_violated"
   ],
   "note": "Proved for functions, constructors and methods found on the class or a direct base. With three levels of overriding and super the call of the uppermost method raises KeyError (witness)."
  },
  {
   "property": "C69",
   "status": "partial",
   "theorems": [
    "Verif.Naming.C69_text_partial",
    "Verif.Naming.C69_edit_partial",
    "Verif.Naming.C69_constructor_violated",
    "Verif.Naming.C69_decorator_violated"
   ],
   "note": "Proved for functions and methods of Tidy scripts. False for constructors and decorators: for all texts the digest stays the same."
  },
  {
   "property": "C70",
   "status": "partial",
   "theorems": [
    "Verif.Functools.C70_declared_partial",
    "Verif.Functools.C70_text_violated",
    "Verif.Functools.C70_varargs_violated",
    "Verif.Functools.C70_annotation_violated",
    "Verif.Functools.C70_constructor_violated"
   ],
   "note": "Proved for every call of a function that Python accepts, with values that fit the annotations; parameters named kw or kwargs are excluded as in C24. A text given for SRCS is split into characters, annotations that are not classes raise, annotations of __init__ are ignored (witnesses)."
  },
  {
   "property": "C71",
   "status": "partial",
   "theorems": [
    "Verif.Ocaml.C71_sound",
    "Verif.Ocaml.C71_complete",
    "Verif.Ocaml.C71_interface_partial",
    "Verif.Ocaml.C71_interface_violated",
    "Verif.Ocaml.C71_modules"
   ],
   "note": "Sound, and complete for modules, for all directories. The interface of the source itself is found beside it or outside the buildroot; of several include directories only the first is searched for it (witness)."
  },
  {
   "property": "C72",
   "status": "partial",
   "theorems": [
    "Verif.Ocaml.C72_native",
    "Verif.Ocaml.C72_native_total",
    "Verif.Ocaml.C72_byte",
    "Verif.Ocaml.C72_byte_total_partial",
    "Verif.Ocaml.C72_cycle_violated",
    "Verif.Ocaml.C72_stale_violated"
   ],
   "note": "What an executed scan returns is the closure (both builders); the native one ends for all finite graphs, the bytecode one for graphs without loops and for no limit on recursion with a loop (witness). A cached scan is not invalidated by edits of the files in between, so objects become stale (witness)."
  },
  {
   "property": "C73",
   "status": "partial",
   "theorems": [
    "Verif.Ocaml.C73_link_partial",
    "Verif.Ocaml.C73_pack_violated",
    "Verif.Ocaml.C73_shadow_violated"
   ],
   "note": "Proved for every schedule, without pack, if each module has one spelling in a directory. With pack the objects given by the caller are on no command line; a file of the same name in the current directory hides a dependency (witnesses)."
  },
  {
   "property": "C74",
   "status": "partial",
   "theorems": [
    "Verif.Ocaml.C74_symbols",
    "Verif.Ocaml.C74_last_partial",
    "Verif.Ocaml.C74_order_partial",
    "Verif.Ocaml.C74_definers_violated",
    "Verif.Ocaml.C74_circle_violated",
    "Verif.Ocaml.C74_iterator_violated"
   ],
   "note": "Proved for objects without loops: each object is before the last of the objects that define a symbol it needs. An earlier definer may stand before it. Two objects that need each other exhaust every limit on recursion; from the cache the second call gets an iterator that is used up (witnesses)."
  },
  {
   "property": "C75",
   "status": "partial",
   "theorems": [
    "Verif.Config.C75_fields_partial",
    "Verif.Config.C75_bases_partial",
    "Verif.Config.C75_bases_violated",
    "Verif.Config.C75_del_violated"
   ],
   "note": "Proved for every hierarchy in which each class has one base and no name is assigned again after it was deleted; for several bases: no name twice if no test is inherited from two of them. False otherwise: cmath of config/cxx lists isinf twice (witness)."
  },
  {
   "property": "C76",
   "status": "partial",
   "theorems": [
    "Verif.Config.C76_namespace_partial",
    "Verif.Config.C76_inherited_violated",
    "Verif.Config.C76_base_violated",
    "Verif.Config.C76_twice_violated",
    "Verif.Config.C76_struct_violated",
    "Verif.Config.C76_property_violated"
   ],
   "note": "Proved for classes whose bases have no tests, with each descriptor used for one name. A derived class does not inherit the namespace (config/cxx/iterator.py), one with a namespace changes the tests of its base; structs and tests written as functions do not work with a namespace (witnesses)."
  },
  {
   "property": "C77",
   "status": "partial",
   "theorems": [
    "Verif.Config.C77_outcome",
    "Verif.Config.C77_type",
    "Verif.Config.C77_int_type",
    "Verif.Config.C77_type_fails",
    "Verif.Config.C77_output_violated",
    "Verif.Config.C77_declared_violated"
   ],
   "note": "Proved for all tests that are not for types, and for types if the program prints the numbers only. Other output makes a type test raise; the declared output of a type test is ignored (witnesses)."
  },
  {
   "property": "C78",
   "status": "partial",
   "theorems": [
    "Verif.Config.C78_listing_partial",
    "Verif.Config.C78_property_violated"
   ],
   "note": "Proved for tests made by descriptors in classes with one base. Functions tested by a property are in no listing (witness)."
  },
  {
   "property": "C79",
   "status": "partial",
   "theorems": [
    "Verif.Config.C79_same_partial",
    "Verif.Config.C79_names",
    "Verif.Config.C79_edit_violated",
    "Verif.Config.C79_shipped_violated"
   ],
   "note": "Proved within one script whose definitions are Tidy. For every edit of a test the digest stays the same, so it is never run again; the results of the two shipped tests for isinf are exchanged (witnesses)."
  },
  {
   "property": "C80",
   "status": "partial",
   "theorems": [
    "Verif.Gcc.C80_sets",
    "Verif.Gcc.C80_includes_partial",
    "Verif.Gcc.C80_words",
    "Verif.Gcc.C80_flags_partial",
    "Verif.Gcc.C80_compile",
    "Verif.Gcc.C80_flags_violated",
    "Verif.Gcc.C80_macro_violated",
    "Verif.Gcc.C80_last_violated"
   ],
   "note": "Proved for all builders and calls, for options that no word passed on as it is looks like, and for flags in which no word is repeated. Repeated words are dropped, so `-include a.h -include b.h` loses its second option; macros are sorted, so the value of the call does not override that of the builder (witnesses)."
  },
  {
   "property": "C81",
   "status": "partial",
   "theorems": [
    "Verif.Gcc.C81_libs_partial",
    "Verif.Gcc.C81_paths_partial",
    "Verif.Gcc.C81_found_partial",
    "Verif.Gcc.C81_order_violated",
    "Verif.Gcc.C81_hidden_violated",
    "Verif.Gcc.C81_libpaths_violated",
    "Verif.Gcc.C81_shared_violated",
    "Verif.Gcc.C81_cwd_violated",
    "Verif.Gcc.C81_name_violated"
   ],
   "note": "Proved for libraries with different names, called libNAME.a or libNAME.so, in directories, if no other directory searched has a library of that name. Plain libraries are linked in reverse order, directories are searched in sorted order, a library in the working directory is not found, other names are cut wrongly (witnesses)."
  },
  {
   "property": "C82",
   "status": "partial",
   "theorems": [
    "Verif.Gcc.C82_members_partial",
    "Verif.Gcc.C82_removed_violated",
    "Verif.Gcc.C82_samename_violated",
    "Verif.Gcc.C82_pattern_violated"
   ],
   "note": "Proved for existing objects with plain names that differ without their directories, if an old archive has no other members. `ar -rcs` keeps members that are no longer given, objects of the same name in two directories replace each other, names with brackets are taken as patterns (witnesses)."
  },
  {
   "property": "C83",
   "status": "partial",
   "theorems": [
    "Verif.Gcc.C83_objects_partial",
    "Verif.Gcc.C83_asked",
    "Verif.Gcc.C83_objects_violated",
    "Verif.Gcc.C83_linked_partial",
    "Verif.Gcc.C83_linked_violated"
   ],
   "note": "Proved for relative paths outside the buildroot: for sources of one extension, and for outputs of one kind. Sources that differ in the extension only, absolute paths with the same last component, and generated sources share an object file (witnesses)."
  },
  {
   "property": "C84",
   "status": "partial",
   "theorems": [
    "Verif.Calls.C84_incremental_partial",
    "Verif.Calls.C84_uptodate_partial",
    "Verif.Calls.C84_build_partial",
    "Verif.Calls.Bad.C84_back_violated",
    "Verif.Calls.Bad.C84_transitive_violated",
    "Verif.Calls.Bad.C84_shadow_violated",
    "Verif.Functools.link_declares",
    "Verif.Functools.link_declared_partial"
   ],
   "note": "Proved for every project in which calls write different files, linkers read the files they declare and compilers report the headers they read, the text of compile stays the same, and no header is removed; C84_build_partial is the statement for build_objects followed by a linker. An object file that is added to an executable and taken away again stays in it, because the two calls of link_exe write one file. `link_exe` declares the libraries that are given, so the executable is stale when a library needed by one of these changes; a new header that hides another is not noticed (witnesses)."
  },
  {
   "property": "C85",
   "status": "partial",
   "theorems": [
    "Verif.FileOps.C85_copy_partial",
    "Verif.FileOps.C85_copy_succeeds_partial",
    "Verif.FileOps.C85_dir_violated",
    "Verif.FileOps.C85_root_violated"
   ],
   "note": "Proved for all trees without links and paths without `..`, if no directory is at the destination and the destination has a directory part. If there is a directory the file goes into it but the directory is returned; a destination like `buildfoo` next to the buildroot `build` cannot be made (witnesses)."
  },
  {
   "property": "C86",
   "status": "partial",
   "theorems": [
    "Verif.FileOps.C86_move_partial",
    "Verif.FileOps.C86_repeat_violated"
   ],
   "note": "Proved for the call itself, as for copy. The same call in a later build raises in every state of the database, because the source is a declared source and is gone (C86_repeat_violated is for all states)."
  },
  {
   "property": "C87",
   "status": "partial",
   "theorems": [
    "Verif.FileOps.C87_copy_partial",
    "Verif.FileOps.C87_dirs_violated",
    "Verif.FileOps.C87_slash_violated",
    "Verif.FileOps.C87_new_file_violated"
   ],
   "note": "Proved for a srcdir without a slash at the end, if destinations are no directories and all different, and apart from the sources. With a slash at the end the names lose a character and files can leave the buildroot; with the default include_dirs=True every matching directory makes it raise; a file added later is not noticed (witnesses)."
  },
  {
   "property": "C88",
   "status": "partial",
   "theorems": [
    "Verif.Guess.C88_first",
    "Verif.Guess.C88_nothing",
    "Verif.Guess.C88_raised",
    "Verif.Guess.C88_compiler_partial",
    "Verif.Guess.C88_table_c",
    "Verif.Guess.C88_table_cxx_partial",
    "Verif.Guess.C88_identify",
    "Verif.Guess.C88_shared_violated",
    "Verif.Guess.C88_unidentified_violated",
    "Verif.Guess.C88_changed_violated"
   ],
   "note": "The choice of the entry is proved for all tables; that it is for the compiler given, if the platform passed names no compiler. A set passed as platform is changed, so that a later call with it takes the wrong compiler; an executable that is not identified gives a NameError; the shared builder for g++ is made by gxx.static (witnesses)."
  },
  {
   "property": "C89",
   "status": "partial",
   "theorems": [
    "Verif.Library.C89_eq",
    "Verif.Library.C89_hash",
    "Verif.Library.C89_ne_partial",
    "Verif.Library.C89_ne_violated"
   ],
   "note": "Proved for == and hash. != is that of str: two libraries of one path that were built in different ways are neither == nor != (C89_ne_violated is for all of them)."
  },
  {
   "property": "C90",
   "status": "partial",
   "theorems": [
    "Verif.Msvc.C90_output_partial",
    "Verif.Msvc.C90_drive_violated",
    "Verif.Msvc.C90_language_violated"
   ],
   "note": "Proved for all outputs in English with paths that have no blank in front. Headers on another drive are ignored; the notes of a compiler in another language are not recognised (witnesses)."
  },
  {
   "property": "C91",
   "status": "partial",
   "theorems": [
    "Verif.Msvc.C91_libs_partial",
    "Verif.Msvc.C91_external",
    "Verif.Msvc.C91_import",
    "Verif.Msvc.C91_paths_violated",
    "Verif.Msvc.C91_own_violated"
   ],
   "note": "Proved for the libraries of the call, of any depth. The libraries of the builder are put in front once more, in the wrong order; the directories are passed by an option that link does not know (witnesses). That link ignores unknown options and knows /LIBPATH only is taken from its documentation."
  },
  {
   "property": "C92",
   "status": "partial",
   "theorems": [
    "Verif.DB.SqliteVersion.C92_kept_partial",
    "Verif.DB.SqliteVersion.C92_closed",
    "Verif.DB.SqliteVersion.C92_new_violated"
   ],
   "note": "Proved once the database was closed by this version. For a new database it is false for all processes: the version is stored by close only, so the file of a first process that was killed is removed by the next one."
  },
  {
   "property": "C93",
   "status": "proved",
   "theorems": [
    "Verif.Text.C93_format",
    "Verif.Text.C93_raised",
    "Verif.Text.C93_template",
    "Verif.Text.C93_undefined",
    "Verif.Text.C93_key"
   ],
   "note": "For all texts and patterns. str.format is modelled by the algorithm of CPython, with the classes of the values as parameters."
  },
  {
   "property": "C94",
   "status": "proved",
   "theorems": [
    "Verif.Main.Process.C94_status",
    "Verif.Main.Process.C94_saved"
   ],
   "note": "The steps are parameters: each may return or raise anything in any state. The exit status is that of fbuild-light."
  },
  {
   "property": "C95",
   "status": "proved",
   "theorems": [
    "Verif.Main.Process.C95_pickle",
    "Verif.Main.Process.C95_sqlite"
   ],
   "note": "For processes that are not killed (C19, C92 are about those), with saving not turned off; pickling of the tables is assumed to succeed and to be read back. The cache engine has no file."
  },
  {
   "property": "C96",
   "status": "partial",
   "theorems": [
    "Verif.Main.Process.C96_pickle_partial",
    "Verif.Main.Process.C96_sqlite_violated",
    "Verif.Main.Process.C96_rebuild_violated"
   ],
   "note": "Proved for the pickle engine without --rebuild, for all state files and ways to end. The sqlite engine commits each result, so that all of them are found; with --rebuild the state file is removed and not written again."
  },
  {
   "property": "C97",
   "status": "proved",
   "theorems": [
    "Verif.Main.Process.C97_pickle",
    "Verif.Main.Process.C97_sqlite",
    "Verif.Main.Process.C97_cache"
   ],
   "note": ""
  },
  {
   "property": "C98",
   "status": "partial",
   "theorems": [
    "Verif.Execute.Command.C98_partial",
    "Verif.Execute.Command.C98_quote_violated",
    "Verif.Execute.Command.C98_word_violated",
    "Verif.Execute.Command.C98_special_violated"
   ],
   "note": "Proved for words of plain characters and for words with blanks but without single quotes. A single quote in a word with blanks, empty words, and quotes, tabs or special characters in a word without blanks are read differently."
  },
  {
   "property": "C99",
   "status": "partial",
   "theorems": [
    "Verif.Execute.Command.C99_given_partial",
    "Verif.Execute.Command.C99_run_partial",
    "Verif.Execute.Command.C99_environment_violated",
    "Verif.Execute.Command.C99_indirect_violated"
   ],
   "note": "Proved for the libraries the program was linked with directly, if no directory of the environment has a library of that name. The directories are put behind those of the environment, and libraries of libraries are left out."
  }
 ]
}