Output of #print axioms for the theorems in MANIFEST.json.

Verif.DB.C01_hit_sound: propext, Quot.sound
Verif.DB.C02_edited_source: propext, Quot.sound
Verif.DB.C03_edited_external: propext, Quot.sound
Verif.DB.C04_partial: propext, Classical.choice, Quot.sound
Verif.DB.C04_shared_header_violated: propext, Quot.sound
Verif.DB.C04_failed_rebuild_violated: propext, Quot.sound
Verif.DB.C05_declared: propext, Quot.sound
Verif.DB.C05_registered: propext, Quot.sound
Verif.DB.C06_null_call_partial: propext, Classical.choice, Quot.sound
Verif.DB.C06_null_build_partial: propext, Classical.choice, Quot.sound
Verif.DB.C06_sqlite_null_call_partial: propext, Classical.choice, Quot.sound
Verif.DB.C06_sqlite_null_build_partial: propext, Classical.choice, Quot.sound
Verif.DB.C06_caught_violated: propext, Quot.sound
Verif.DB.C06_parallel_violated: propext, Quot.sound
Verif.DB.C06_sqlite_lost_violated: propext, Quot.sound
Verif.DB.C07_other_text: propext, Quot.sound
Verif.DB.C07_edit_drops_all: propext, Quot.sound
Verif.DB.C08_partial: propext, Quot.sound
Verif.DB.C08_violated: propext, Quot.sound
Verif.DB.C08_branch_violated: propext, Quot.sound
Verif.DB.C09_exact_partial: propext, Quot.sound
Verif.DB.C09_terminates_partial: propext, Classical.choice, Quot.sound
Verif.DB.C09_mutual_violated: propext, Quot.sound
Verif.DB.C10_frame: propext, Quot.sound
Verif.Path.Rel.C100_relpath: propext, Quot.sound
Verif.Path.Rel.C100_below: propext, Quot.sound
Verif.Path.Rel.C100_normpath: propext, Quot.sound
Verif.Path.Rel.C100_abspath: propext, Quot.sound
Verif.Path.Rel.C100_jar: propext, Classical.choice, Quot.sound
Verif.Path.Rel.C100_manifest: propext, Classical.choice, Quot.sound
Verif.Path.Rel.C100_empty: propext, Classical.choice, Quot.sound
Verif.Calls.C101_partial: propext, Classical.choice, Quot.sound
Verif.Calls.C101_files_partial: propext, Classical.choice, Quot.sound
Verif.Calls.C101_alone: propext, Quot.sound
Verif.Calls.C101_violated: propext
Verif.Calls.C102_partial: propext, Classical.choice, Quot.sound
Verif.Calls.C102_violated: propext, Classical.choice, Quot.sound
Verif.Gcc.C103_targets_partial: propext, Classical.choice, Quot.sound
Verif.Gcc.C103_linked_partial: propext, Classical.choice, Quot.sound
Verif.Gcc.C103_objects: propext, Classical.choice, Quot.sound
Verif.Gcc.C103_libraries: propext, Classical.choice, Quot.sound
Verif.Gcc.C103_violated: propext, Classical.choice, Quot.sound
Verif.Gcc.C103_linked_violated: propext, Classical.choice, Quot.sound
Verif.Temp.C104_dedent: propext, Quot.sound
Verif.Temp.C104_blank: propext, Quot.sound
Verif.Temp.C104_indent: propext, Quot.sound
Verif.Temp.C104_file: propext, Quot.sound
Verif.Temp.C105_partial: propext, Quot.sound
Verif.Temp.C105_violated: propext, Quot.sound
Verif.Source.C106_text: propext, Classical.choice, Quot.sound
Verif.Source.C106_change: propext, Classical.choice, Quot.sound
Verif.Source.C106_partial: propext, Classical.choice, Quot.sound
Verif.Source.C106_python_violated: propext, Classical.choice, Quot.sound
Verif.Source.C107_partial: propext, Classical.choice, Quot.sound
Verif.Source.C107_violated: propext, Classical.choice, Quot.sound
Verif.Main.Target.C108_main: propext, Classical.choice, Quot.sound
Verif.Main.Target.C108_find: propext, Classical.choice, Quot.sound
Verif.Main.Target.C108_unknown: propext, Classical.choice, Quot.sound
Verif.Main.Target.C108_help: propext, Classical.choice, Quot.sound
Verif.Java.C109_partial: propext, Quot.sound
Verif.Java.C109_violated: propext, Classical.choice, Quot.sound
Verif.DB.C11_raise_stores_nothing: propext
Verif.DB.C11_stored_results_stay: propext, Quot.sound
Verif.Java.C110_run: propext
Verif.Java.C111_partial: propext, Quot.sound
Verif.Java.C111_violated: propext, Quot.sound
Verif.Checks.C112_statements: propext, Classical.choice, Quot.sound
Verif.Checks.C112_raises: propext, Classical.choice, Quot.sound
Verif.Checks.C112_returns: propext, Classical.choice, Quot.sound
Verif.Checks.C112_macros: propext, Classical.choice, Quot.sound
Verif.Checks.C112_header: propext, Classical.choice, Quot.sound
Verif.Checks.C113_partial: propext, Classical.choice, Quot.sound
Verif.Checks.C113_violated: propext, Classical.choice, Quot.sound
Verif.Calls.C114_partial: propext, Classical.choice, Quot.sound
Verif.Calls.C114_uptodate_partial: propext, Classical.choice, Quot.sound
Verif.Calls.C114_schedules_partial: propext, Classical.choice, Quot.sound
Verif.Calls.C114_succeeds_partial: propext, Classical.choice, Quot.sound
Verif.Calls.C114_after_partial: propext, Classical.choice, Quot.sound
Verif.Calls.Bad.C84_transitive_violated: propext
Verif.Install.C115_returned: propext, Quot.sound
Verif.Install.C115_same: propext, Quot.sound
Verif.Install.C115_status: propext, Quot.sound
Verif.Install.C115_progress: propext, Quot.sound
Verif.Install.C115_ends: propext, Quot.sound
Verif.Install.C115_denied: propext
Verif.Ocaml.C116_files: propext, Classical.choice, Quot.sound
Verif.Ocaml.C116_packages: propext, Classical.choice, Quot.sound
Verif.Ocaml.C116_options: propext, Classical.choice, Quot.sound
Verif.Ocaml.C116_includes_partial: propext, Classical.choice, Quot.sound
Verif.Ocaml.C116_switches_partial: propext, Classical.choice, Quot.sound
Verif.Ocaml.C116_nothing: propext, Classical.choice, Quot.sound
Verif.Ocaml.C116_link: propext, Classical.choice, Quot.sound
Verif.Ocaml.C116_modes: propext, Classical.choice, Quot.sound
Verif.Ocaml.C116_modules: propext, Classical.choice, Quot.sound
Verif.Ocaml.C116_profile_violated: propext, Classical.choice, Quot.sound
Verif.Ocaml.C116_interface_violated: propext, Classical.choice, Quot.sound
Verif.Ocaml.C116_order_violated: propext, Classical.choice, Quot.sound
Verif.Small.C117_partial: propext, Classical.choice, Quot.sound
Verif.Small.C117_switches_partial: propext, Classical.choice, Quot.sound
Verif.Small.C117_compile: propext, Classical.choice, Quot.sound
Verif.Small.C117_argument_violated: propext, Classical.choice, Quot.sound
Verif.Small.C117_last_violated: propext, Classical.choice, Quot.sound
Verif.Small.C118_command: propext, Classical.choice, Quot.sound
Verif.Small.C119_llc_partial: propext, Classical.choice, Quot.sound
Verif.Small.C119_as_partial: propext, Classical.choice, Quot.sound
Verif.Small.C119_violated: propext, Classical.choice, Quot.sound
Verif.DB.C12_prepare_raises: propext, Quot.sound
Verif.DB.C12_missing_source: propext, Quot.sound
Verif.Small.C120_includes: propext, Classical.choice, Quot.sound
Verif.Small.C120_switches: propext, Classical.choice, Quot.sound
Verif.Small.C120_stdout: propext, Classical.choice, Quot.sound
Verif.Small.C120_includes_violated: propext, Classical.choice, Quot.sound
Verif.Small.C120_flags_violated: propext, Classical.choice, Quot.sound
Verif.Small.C121_partial: propext
Verif.Small.C121_none_violated: propext, Classical.choice, Quot.sound
Verif.Small.C121_blank_violated: propext, Classical.choice, Quot.sound
Verif.Record.C122_partial: propext, Quot.sound
Verif.Record.C122_items: propext, Quot.sound
Verif.Record.C122_name_violated: propext, Quot.sound
Verif.Record.C122_del_violated: propext, Quot.sound
Verif.Calls.C123_partial: propext, Classical.choice, Quot.sound
Verif.Calls.C123_build_partial: propext, Classical.choice, Quot.sound
Verif.Calls.C123_events: propext, Quot.sound
Verif.Calls.C123_file: propext, Quot.sound
Verif.Calls.C123_function: propext, Quot.sound
Verif.Calls.C123_first: propext
Verif.Calls.Bad.C123_half_violated: propext
Verif.Calls.Bad.C123_caller_violated: propext
Verif.Calls.Bad.C59_crash_violated: propext
Verif.Platform.C124_declared_partial: propext, Classical.choice, Quot.sound
Verif.Platform.C124_key_partial: propext, Classical.choice, Quot.sound
Verif.Platform.C124_given: propext, Classical.choice, Quot.sound
Verif.Platform.C124_declared_violated: propext, Classical.choice, Quot.sound
Verif.Platform.C124_key_violated: propext, Classical.choice, Quot.sound
Verif.Search.C125_whole: propext, Quot.sound
Verif.Search.C125_compare: propext, Quot.sound
Verif.Search.C126_exact_partial: propext, Classical.choice, Quot.sound
Verif.Search.C126_order: propext, Classical.choice, Quot.sound
Verif.Search.C126_nested_violated: propext, Classical.choice, Quot.sound
Verif.Search.C127_exact: propext, Classical.choice, Quot.sound
Verif.Search.C127_once: propext, Classical.choice, Quot.sound
Verif.Search.C127_nothing: propext, Classical.choice, Quot.sound
Verif.Msvc.C128_compile_partial: propext, Classical.choice, Quot.sound
Verif.Msvc.C128_includes_violated: propext, Classical.choice, Quot.sound
Verif.Msvc.C128_flags_violated: propext, Classical.choice, Quot.sound
Verif.Msvc.C128_macro_violated: propext, Classical.choice, Quot.sound
Verif.Msvc.C128_exe_violated: propext, Classical.choice, Quot.sound
Verif.Gcc.Factory.C129_compile: propext, Classical.choice, Quot.sound
Verif.Gcc.Factory.C129_shared: propext, Classical.choice, Quot.sound
Verif.Gcc.Factory.C129_link_exe: propext, Classical.choice, Quot.sound
Verif.Gcc.Factory.C129_link_lib: propext, Classical.choice, Quot.sound
Verif.Gcc.Factory.C129_static_lib: propext, Classical.choice, Quot.sound
Verif.Gcc.Factory.C129_ar_violated: propext, Classical.choice, Quot.sound
Verif.Gcc.Factory.C129_link_flags_violated: propext, Classical.choice, Quot.sound
Verif.Gcc.Factory.C129_prefix_violated: propext, Classical.choice, Quot.sound
Verif.DB.C13_check_partial: propext, Quot.sound
Verif.DB.C13_recent_partial: propext, Quot.sound
Verif.DB.C13_coarse_mtime_violated: propext
Verif.Console.Terminal.C130_terminal: propext, Classical.choice, Quot.sound
Verif.Console.Terminal.C130_column: propext, Classical.choice, Quot.sound
Verif.Console.Terminal.C130_more: propext, Classical.choice, Quot.sound
Verif.Console.Terminal.C130_line: propext, Classical.choice, Quot.sound
Verif.Console.Terminal.C130_colors: propext, Classical.choice, Quot.sound
Verif.Platform.Guess.C131_kinds: propext, Classical.choice, Quot.sound
Verif.Platform.Guess.C131_posix: propext, Classical.choice, Quot.sound
Verif.Platform.Guess.C131_name: propext, Classical.choice, Quot.sound
Verif.Platform.Guess.C131_uname: propext, Classical.choice, Quot.sound
Verif.Platform.Guess.C131_python: propext, Classical.choice, Quot.sound
Verif.Platform.Guess.C131_version: propext, Classical.choice, Quot.sound
Verif.Platform.Guess.C131_unknown_partial: propext, Classical.choice, Quot.sound
Verif.Platform.Guess.C131_windows_violated: propext, Classical.choice, Quot.sound
Verif.Platform.Guess.C131_case_violated: propext, Classical.choice, Quot.sound
Verif.Platform.Guess.C131_mingw_violated: propext, Classical.choice, Quot.sound
Verif.Gcc.Project.C132_partial: propext, Classical.choice, Quot.sound
Verif.Gcc.Project.C132_scratch_partial: propext, Classical.choice, Quot.sound
Verif.Gcc.Project.C132_succeeds_partial: propext, Classical.choice, Quot.sound
Verif.Gcc.Project.C132_after_partial: propext, Classical.choice, Quot.sound
Verif.Gcc.Project.C132_all_partial: propext, Classical.choice, Quot.sound
Verif.Gcc.Project.C132_commands: propext, Classical.choice, Quot.sound
Verif.Gcc.Project.C132_unreadable: propext, Classical.choice, Quot.sound
Verif.Gcc.Project.Ex.C132_extension_violated: propext, Classical.choice, Quot.sound
Verif.Gcc.Project.Ex.C132_blank_violated: propext, Classical.choice, Quot.sound
Verif.Gcc.Project.Ex.C132_order_violated: propext, Classical.choice, Quot.sound
Verif.Gcc.Project.Ex.C132_needs_violated: propext, Classical.choice, Quot.sound
Verif.DB.C133_partial: propext, Classical.choice, Quot.sound
Verif.DB.C133_violated: propext, Quot.sound
Verif.DB.C133_branch_violated: propext, Quot.sound
Verif.DB.Engines.C134_partial: propext, Classical.choice, Quot.sound
Verif.DB.Ex.C134_external_violated: propext, Quot.sound
Verif.DB.Ex.C134_overlap_violated: propext, Quot.sound
Verif.DB.Ex.C134_dirty_violated: propext, Quot.sound
Verif.DB.Ex.C134_killed_violated: propext, Quot.sound
Verif.DB.Ex.C134_deleted_violated: propext, Quot.sound
Verif.Options.C135_partial: propext, Classical.choice, Quot.sound
Verif.Options.C135_dashes: propext, Classical.choice, Quot.sound
Verif.Options.C135_unknown: propext, Classical.choice, Quot.sound
Verif.Options.C135_ambiguous: propext, Classical.choice, Quot.sound
Verif.Options.C135_flag_argument: propext, Classical.choice, Quot.sound
Verif.Options.C135_letter: propext, Classical.choice, Quot.sound
Verif.Options.C135_wrong: propext, Classical.choice, Quot.sound
Verif.Options.C135_second_refused: propext, Classical.choice, Quot.sound
Verif.Options.Ex.C135_order_violated: propext, Classical.choice, Quot.sound
Verif.Options.Ex.C135_argument_violated: propext, Classical.choice, Quot.sound
Verif.Options.C136_partial: propext, Classical.choice, Quot.sound
Verif.Options.C136_below: propext, Quot.sound
Verif.Options.Ex.C136_warnings_violated: propext, Classical.choice, Quot.sound
Verif.Options.Shim.C137_partial: propext, Classical.choice, Quot.sound
Verif.Options.Shim.C137_many_partial: propext, Classical.choice, Quot.sound
Verif.Options.Shim.C137_whole: propext, Classical.choice, Quot.sound
Verif.Options.Shim.C137_shared_partial: propext, Classical.choice, Quot.sound
Verif.Options.Shim.C137_nargs: propext, Classical.choice, Quot.sound
Verif.Options.Shim.C137_defaults_violated: propext, Classical.choice, Quot.sound
Verif.Options.Shim.C137_flag_violated: propext, Classical.choice, Quot.sound
Verif.Options.Shim.C137_int_violated: propext, Classical.choice, Quot.sound
Verif.Options.Shim.C137_long_violated: propext, Classical.choice, Quot.sound
Verif.Options.Shim.C137_callback_violated: propext, Classical.choice, Quot.sound
Verif.Options.Shim.C137_metavar_violated: propext, Classical.choice, Quot.sound
Verif.Options.Shim.C137_keyword_violated: propext, Classical.choice, Quot.sound
Verif.Options.Shim.C137_hidden_violated: propext, Classical.choice, Quot.sound
Verif.Java.C138_partial: propext, Quot.sound
Verif.Java.C138_violated: propext, Quot.sound
Verif.Java.C139_javac_partial: propext, Classical.choice, Quot.sound
Verif.Java.C139_scalac_partial: propext, Classical.choice, Quot.sound
Verif.Java.C139_below_partial: propext, Quot.sound
Verif.Java.C139_call_partial: propext, Classical.choice, Quot.sound
Verif.Java.C139_root_violated: propext, Quot.sound
Verif.Java.C139_messages: propext, Classical.choice, Quot.sound
Verif.DB.C14_declared_partial: propext, Quot.sound
Verif.DB.C14_external_violated: propext, Quot.sound
Verif.Checks.Builder.C140_works: propext, Classical.choice, Quot.sound
Verif.Checks.Builder.C140_refused_partial: propext, Classical.choice, Quot.sound
Verif.Checks.Builder.C140_link_violated: propext, Quot.sound
Verif.Checks.Builder.C140_guess_violated: propext
Verif.Checks.Builder.C140_cross: none
Verif.Checks.Builder.C140_try: propext, Classical.choice, Quot.sound
Verif.Checks.Builder.C140_other: propext, Classical.choice, Quot.sound
Verif.Checks.Builder.C140_openmp: propext, Classical.choice, Quot.sound
Verif.Config.Results.C141_equal_partial: propext
Verif.Config.Results.C141_answer: propext, Classical.choice, Quot.sound
Verif.Config.Results.C141_hash: propext, Classical.choice, Quot.sound
Verif.Config.Results.C141_hashed: propext, Classical.choice, Quot.sound
Verif.Config.Results.C141_repr_text: propext, Classical.choice, Quot.sound
Verif.Config.Results.C141_function_violated: propext
Verif.Config.Results.C141_repr_violated: propext, Classical.choice, Quot.sound
Verif.Config.Results.C142_function_partial: propext, Classical.choice, Quot.sound
Verif.Config.Results.C142_defaults: propext, Classical.choice, Quot.sound
Verif.Config.Results.C142_struct: propext, Classical.choice, Quot.sound
Verif.Config.Results.C142_variable: propext, Classical.choice, Quot.sound
Verif.Config.Results.C142_callback_violated: propext, Classical.choice, Quot.sound
Verif.Config.Results.C142_nested_violated: propext, Classical.choice, Quot.sound
Verif.Versions.C143_partial: propext, Classical.choice, Quot.sound
Verif.Versions.C143_gcc_violated: propext
Verif.Versions.C143_debian_violated: propext, Classical.choice, Quot.sound
Verif.Versions.C143_clang_violated: propext, Classical.choice, Quot.sound
Verif.Versions.C143_unread_violated: propext, Classical.choice, Quot.sound
Verif.Builders.Found.C144_search_partial: propext, Quot.sound
Verif.Builders.Found.C144_remembered_violated: propext, Classical.choice, Quot.sound
Verif.Builders.Found.Ex.C144_removed_violated: propext, Classical.choice, Quot.sound
Verif.Ocaml.Both.C145_one_partial: propext, Classical.choice, Quot.sound
Verif.Ocaml.Both.C145_pack_partial: propext, Classical.choice, Quot.sound
Verif.Ocaml.Both.C145_both_partial: propext, Classical.choice, Quot.sound
Verif.Ocaml.Both.C145_link_partial: propext, Quot.sound
Verif.Ocaml.Both.C145_fails: propext
Verif.Ocaml.Both.C145_pack_violated: propext, Classical.choice, Quot.sound
Verif.Ocaml.Both.C145_includes_violated: propext
Verif.Ocaml.Both.C145_compile_violated: propext
Verif.Ocaml.Both.C145_objects_violated: propext, Classical.choice, Quot.sound
Verif.Ocaml.Both.C145_root_violated: propext, Quot.sound
Verif.DB.Pickling.C146_pickle_partial: propext, Quot.sound
Verif.DB.Pickling.C146_removed_class: propext, Quot.sound
Verif.DB.Pickling.C146_sqlite_partial: propext, Quot.sound
Verif.DB.Pickling.C146_lost_violated: propext
Verif.DB.Pickling.C146_module_violated: propext, Quot.sound
Verif.DB.Pickling.C146_sqlite_violated: propext, Quot.sound
Verif.Execute.Procs.C147_limit_partial: propext, Classical.choice, Quot.sound
Verif.Execute.Procs.C147_armed: propext, Quot.sound
Verif.Execute.Procs.C147_kills: propext, Classical.choice, Quot.sound
Verif.Execute.Procs.C147_other_violated: propext
Verif.Execute.Procs.C147_left_violated: propext
Verif.Path.Operators.C148_div: propext, Classical.choice, Quot.sound
Verif.Path.Operators.C148_parent: propext, Classical.choice, Quot.sound
Verif.Path.Operators.C148_back: propext, Quot.sound
Verif.Path.Operators.C148_ext: propext, Quot.sound
Verif.Path.Operators.C148_target: propext, Classical.choice, Quot.sound
Verif.Ocaml.Rebuild.C149_byte_partial: propext, Classical.choice, Quot.sound
Verif.Ocaml.Rebuild.C149_native_partial: propext, Classical.choice, Quot.sound
Verif.Ocaml.Rebuild.C149_native_interface_partial: propext, Classical.choice, Quot.sound
Verif.Ocaml.Rebuild.C149_written_partial: propext, Classical.choice, Quot.sound
Verif.Ocaml.Rebuild.C149_interface: propext, Classical.choice, Quot.sound
Verif.Ocaml.Rebuild.C149_link: propext, Classical.choice, Quot.sound
Verif.Ocaml.Rebuild.C149_library: propext, Classical.choice, Quot.sound
Verif.Ocaml.Rebuild.C149_added_violated: propext, Classical.choice, Quot.sound
Verif.Ocaml.Rebuild.C149_written_violated: propext, Classical.choice, Quot.sound
Verif.Calls.C15_partial: propext, Quot.sound
Verif.Calls.C15_stored: propext, Quot.sound
Verif.Calls.C15_raise_violated: propext
Verif.Calls.C15_clean_violated: propext
Verif.Calls.C15_threads_violated: none
Verif.Msvc.Shown.C150_compile_partial: propext, Classical.choice, Quot.sound
Verif.Msvc.Shown.C150_fails_partial: propext, Classical.choice, Quot.sound
Verif.Msvc.Shown.C150_quiet_partial: propext, Classical.choice, Quot.sound
Verif.Msvc.Shown.C150_dll_partial: propext, Classical.choice, Quot.sound
Verif.Msvc.Shown.C150_link: propext
Verif.Msvc.Shown.C150_stripped: propext, Quot.sound
Verif.Msvc.Shown.C150_twice_violated: propext, Classical.choice, Quot.sound
Verif.Msvc.Shown.C150_name_violated: propext, Classical.choice, Quot.sound
Verif.Msvc.Shown.C150_quieter_violated: propext, Classical.choice, Quot.sound
Verif.Msvc.Shown.C150_dll_violated: propext, Classical.choice, Quot.sound
Verif.Msvc.Shown.C150_bytes_violated: propext, Classical.choice, Quot.sound
Verif.Gcc.Made.C151_made: propext, Classical.choice, Quot.sound
Verif.Gcc.Made.C151_default_partial: propext, Classical.choice, Quot.sound
Verif.Gcc.Made.C151_flags: propext, Classical.choice, Quot.sound
Verif.Gcc.Made.C151_refused: propext, Classical.choice, Quot.sound
Verif.Gcc.Made.C151_call_violated: propext, Classical.choice, Quot.sound
Verif.Execute.Wait.C152_outcome: propext, Classical.choice, Quot.sound
Verif.Execute.Wait.C152_limit: propext, Classical.choice, Quot.sound
Verif.Execute.Wait.C152_status_partial: propext, Quot.sound
Verif.Execute.Wait.C152_forever_partial: propext
Verif.Execute.Wait.C152_check_partial: propext
Verif.Execute.Wait.C152_late_violated: propext, Quot.sound
Verif.Execute.Wait.C152_race_violated: propext, Quot.sound
Verif.Execute.Wait.C152_raise_violated: propext, Quot.sound
Verif.Execute.Wait.C152_stopped_violated: propext, Quot.sound
Verif.Text.Regex.C153_partial: propext, Quot.sound
Verif.Text.Regex.C153_ends_violated: propext, Quot.sound
Verif.Config.Get.C154_partial: propext
Verif.Config.Get.C154_none_violated: propext
Verif.Main.Hooks.C155_hook: propext, Quot.sound
Verif.Main.Hooks.C155_parse: propext, Classical.choice, Quot.sound
Verif.Main.Hooks.C155_raises: propext, Classical.choice, Quot.sound
Verif.Main.Hooks.C155_import_partial: propext, Classical.choice, Quot.sound
Verif.Main.Hooks.C155_import_violated: propext, Classical.choice, Quot.sound
Verif.FileOps.C156_made: propext, Classical.choice, Quot.sound
Verif.FileOps.C156_can_partial: propext, Classical.choice, Quot.sound
Verif.FileOps.C156_log_violated: propext, Classical.choice, Quot.sound
Verif.FileOps.C156_tmp_violated: propext, Classical.choice, Quot.sound
Verif.Platform.Names.C157_names: propext, Classical.choice, Quot.sound
Verif.Platform.Names.C157_kind: propext, Classical.choice, Quot.sound
Verif.Platform.Names.C157_found: propext, Classical.choice, Quot.sound
Verif.Platform.Names.C157_variable_partial: propext, Classical.choice, Quot.sound
Verif.Platform.Names.C157_variable_violated: propext, Classical.choice, Quot.sound
Verif.Ocaml.Lex.C158_lex: propext, Classical.choice, Quot.sound
Verif.Ocaml.Lex.C158_yacc: propext, Classical.choice, Quot.sound
Verif.Ocaml.Lex.C158_distinct_partial: propext, Classical.choice, Quot.sound
Verif.Ocaml.Lex.C158_same_violated: propext, Classical.choice, Quot.sound
Verif.Ocaml.Lex.C158_root_violated: propext, Classical.choice, Quot.sound
Verif.Ocaml.Made.C159_bytecode: propext, Classical.choice, Quot.sound
Verif.Ocaml.Made.C159_native: propext, Classical.choice, Quot.sound
Verif.Ocaml.Made.C159_both: propext, Classical.choice, Quot.sound
Verif.Ocaml.Made.C159_refused_partial: propext, Classical.choice, Quot.sound
Verif.Ocaml.Made.C159_link_violated: propext, Classical.choice, Quot.sound
Verif.Ocaml.Made.C159_profiler_violated: propext, Classical.choice, Quot.sound
Verif.Ocaml.Made.C159_version_violated: propext, Classical.choice, Quot.sound
Verif.Calls.C16_partial: propext, Classical.choice, Quot.sound
Verif.Calls.C16_hit_violated: propext
Verif.Calls.C16_deleted_violated: propext
Verif.ConfigTools.C160_llvm_partial: propext, Classical.choice, Quot.sound
Verif.ConfigTools.C160_sdl: propext, Classical.choice, Quot.sound
Verif.ConfigTools.C160_obj_violated: propext, Classical.choice, Quot.sound
Verif.ConfigTools.C160_stale_violated: propext, Classical.choice, Quot.sound
Verif.ConfigTools.C160_package_violated: propext, Classical.choice, Quot.sound
Verif.Msvc.C161_static_partial: propext, Classical.choice, Quot.sound
Verif.Msvc.C161_exe_partial: propext, Classical.choice, Quot.sound
Verif.Msvc.C161_shared_partial: propext, Classical.choice, Quot.sound
Verif.Msvc.C161_empty_violated: propext, Classical.choice, Quot.sound
Verif.Msvc.C161_names_violated: propext, Classical.choice, Quot.sound
Verif.Msvc.C161_libs_violated: propext, Classical.choice, Quot.sound
Verif.Config.C162_header: propext, Classical.choice, Quot.sound
Verif.Config.C162_macro: propext, Classical.choice, Quot.sound
Verif.Config.C162_missing: propext
Verif.Config.C163_type: propext, Classical.choice, Quot.sound
Verif.Config.C163_int_type: propext, Classical.choice, Quot.sound
Verif.Made.C164_cl_partial: propext, Classical.choice, Quot.sound
Verif.Made.C164_flags: propext, Classical.choice, Quot.sound
Verif.Made.C164_ghc: propext, Classical.choice, Quot.sound
Verif.Made.C164_java_partial: propext, Classical.choice, Quot.sound
Verif.Made.C164_scala_partial: propext, Classical.choice, Quot.sound
Verif.Made.C164_refused: propext, Classical.choice, Quot.sound
Verif.Made.C164_other: propext, Classical.choice, Quot.sound
Verif.Made.C164_unasked_violated: propext, Classical.choice, Quot.sound
Verif.Made.C164_felix_violated: propext, Classical.choice, Quot.sound
Verif.Java.C165_home_partial: propext, Classical.choice, Quot.sound
Verif.Java.C165_none: propext, Classical.choice, Quot.sound
Verif.Java.C165_modern_violated: propext, Classical.choice, Quot.sound
Verif.Java.C165_nested_violated: propext, Classical.choice, Quot.sound
Verif.Config.Equal.C166_equal_partial: propext
Verif.Config.Equal.C166_hash: propext, Classical.choice, Quot.sound
Verif.Config.Equal.C166_template_violated: propext, Classical.choice, Quot.sound
Verif.Config.Equal.C166_function_violated: propext
Verif.Config.Equal.C166_list_violated: propext, Classical.choice, Quot.sound
Verif.Functools.Import.C167_function: propext
Verif.Functools.Import.C167_module: propext
Verif.Functools.Import.C167_call: propext
Verif.Functools.Import.C167_missing: propext
Verif.Path.C168_lines: propext, Classical.choice, Quot.sound
Verif.Path.C168_newlines: propext, Classical.choice, Quot.sound
Verif.DB.C17_delete_function: propext, Quot.sound
Verif.DB.C17_delete_file: propext, Quot.sound
Verif.Main.C17_command: propext
Verif.DB.C17_sqlite_report_violated: propext, Quot.sound
Verif.DB.C17_sqlite_file_violated: propext, Quot.sound
Verif.DB.Pickle.C18_not_torn: propext, Quot.sound
Verif.DB.Pickle.C18_next_start: propext, Quot.sound
Verif.DB.Pickle.C18_sessions: propext, Quot.sound
Verif.DB.Pickle.C19_on_disk_partial: propext, Quot.sound
Verif.DB.Pickle.C19_first_save_partial: propext, Quot.sound
Verif.DB.Pickle.C19_lost_violated: propext, Quot.sound
Verif.DB.Pickle.C20_connect_partial: propext, Quot.sound
Verif.DB.Pickle.C20_moved: propext
Verif.DB.Pickle.C20_crash_partial: propext, Quot.sound
Verif.DB.Pickle.C20_crash_violated: none
Verif.DB.SqliteVersion.C20_sqlite_partial: propext
Verif.DB.SqliteVersion.C20_sqlite_crash_partial: propext
Verif.DB.SqliteVersion.C20_sqlite_crash_violated: propext
Verif.DB.Pickle.C21_survives: propext, Quot.sound
Verif.DB.C22_cache_completes: propext, Quot.sound
Verif.DB.C22_sqlite_violated: propext, Quot.sound
Verif.DB.C22_sqlite_edit_violated: propext, Quot.sound
Verif.DB.C23_interleaved_partial: propext, Quot.sound
Verif.DB.C23_overlap_violated: propext, Quot.sound
Verif.Functools.C24_same_key_partial: propext, Classical.choice, Quot.sound
Verif.Functools.C24_method_partial: propext, Classical.choice, Quot.sound
Verif.Functools.C24_persistent_violated: propext, Classical.choice, Quot.sound
Verif.Functools.C25_rejects_partial: propext, Classical.choice, Quot.sound
Verif.Functools.C25_surplus_violated: propext
Verif.Functools.C25_kw_violated: propext, Quot.sound
Verif.Functools.C25_self_violated: propext
Verif.Sched.C26_map: propext, Classical.choice, Quot.sound
Verif.Sched.C26_nested: propext, Classical.choice, Quot.sound
Verif.Sched.C27_at_most_once: propext, Classical.choice, Quot.sound
Verif.Sched.C27_exactly_once: propext, Classical.choice, Quot.sound
Verif.Sched.C28_dependencies_first: propext, Classical.choice, Quot.sound
Verif.Sched.C29_order: propext, Classical.choice, Quot.sound
Verif.Sched.C30_finitely_many_steps: propext, Classical.choice, Quot.sound
Verif.Sched.C30_finishes_partial: propext, Classical.choice, Quot.sound
Verif.Sched.C30_can_finish_partial: propext, Classical.choice, Quot.sound
Verif.Sched.C30_no_deadlock_partial: propext, Classical.choice, Quot.sound
Verif.Sched.Ex.C30_main_interruptible_violated: propext, Quot.sound
Verif.Sched.C31_loop_partial: propext, Classical.choice, Quot.sound
Verif.Sched.Ex.C31_names_violated: propext, Quot.sound
Verif.Sched.C32_not_normal: propext, Classical.choice, Quot.sound
Verif.Sched.C32_own_exception: propext, Classical.choice, Quot.sound
Verif.Sched.C32_map: propext, Classical.choice, Quot.sound
Verif.Sched.C33_dependents_partial: propext, Classical.choice, Quot.sound
Verif.Sched.Ex.C33_violated: propext, Quot.sound
Verif.Sched.C34_one_worker_partial: propext, Classical.choice, Quot.sound
Verif.Sched.Ex.C34_violated: propext, Quot.sound
Verif.Sched.C35_shutdown_partial: propext, Classical.choice, Quot.sound
Verif.Sched.C35_no_deadlock_partial: propext, Classical.choice, Quot.sound
Verif.Sched.Ex.C35_violated: propext, Quot.sound
Verif.Rpc.C36_in_order: propext, Classical.choice, Quot.sound
Verif.Rpc.C36_own_answer_partial: propext, Classical.choice, Quot.sound
Verif.Rpc.C36_accepted: propext
Verif.Rpc.C36_start_race_violated: propext
Verif.Rpc.C36_exception_value_violated: propext
Verif.Rpc.C37_call_returns_partial: propext, Classical.choice, Quot.sound
Verif.Rpc.C37_join_returns_partial: propext, Classical.choice, Quot.sound
Verif.Rpc.C37_fatal_violated: propext, Classical.choice, Quot.sound
Verif.Rpc.C37_double_join_violated: propext, Quot.sound
Verif.Fnmatch.C38_parts_partial: propext, Classical.choice, Quot.sound
Verif.Fnmatch.C38_text_partial: propext, Classical.choice, Quot.sound
Verif.Fnmatch.C38_newline_partial: propext, Classical.choice, Quot.sound
Verif.Fnmatch.C38_trailing_newline_violated: propext, Classical.choice, Quot.sound
Verif.Fnmatch.C38_newline_any_violated: propext, Classical.choice, Quot.sound
Verif.Fnmatch.C38_reversed_range_violated: propext, Classical.choice, Quot.sound
Verif.Fnmatch.C39_exact_partial: propext, Classical.choice, Quot.sound
Verif.Fnmatch.C39_newline_violated: propext, Classical.choice, Quot.sound
Verif.Glob.C40_sound_partial: propext, Classical.choice, Quot.sound
Verif.Glob.C40_picked: propext, Classical.choice, Quot.sound
Verif.Glob.C40_complete: propext, Classical.choice, Quot.sound
Verif.Glob.C40_missing_directory_violated: propext, Classical.choice, Quot.sound
Verif.Path.C41_below_partial: propext, Quot.sound
Verif.Path.C41_idempotent: propext, Quot.sound
Verif.Path.C41_removeroot_partial: propext, Quot.sound
Verif.Path.C41_distinct_partial: propext
Verif.Path.C41_below_violated: propext, Classical.choice, Quot.sound
Verif.Path.C41_removeroot_violated: propext, Classical.choice, Quot.sound
Verif.Path.C41_distinct_violated: propext, Classical.choice, Quot.sound
Verif.Path.C42_replaceext_partial: propext, Quot.sound
Verif.Path.C42_override_partial: propext, Quot.sound
Verif.Path.C42_replaceexts: propext, Quot.sound
Verif.Path.C42_violated: propext, Classical.choice, Quot.sound
Verif.Path.C43_splitall: propext, Quot.sound
Verif.Main.C44_built_partial: propext, Classical.choice, Quot.sound
Verif.Main.C44_alone: propext, Classical.choice, Quot.sound
Verif.Main.C44_misplaced: propext
Verif.Main.C44_plain: propext, Quot.sound
Verif.Main.C44_configure_violated: propext
Verif.Main.C44_twice_violated: propext
Verif.Install.C45_below_partial: propext, Quot.sound
Verif.Install.C45_violated: propext, Classical.choice, Quot.sound
Verif.Install.C46_copy_partial: propext
Verif.Install.C46_link_partial: propext, Quot.sound
Verif.Install.C46_all_partial: propext, Quot.sound
Verif.Install.C46_missing: propext, Quot.sound
Verif.Install.C46_perms_violated: propext
Verif.Install.C46_link_perms_violated: propext
Verif.Install.C46_dangling_violated: propext
Verif.Install.C46_directory_violated: propext
Verif.Platform.C47_match: propext, Quot.sound
Verif.Platform.C48_result_partial: propext, Classical.choice, Quot.sound
Verif.Platform.C48_caller_partial: propext, Classical.choice, Quot.sound
Verif.Platform.C48_grows_violated: propext, Classical.choice, Quot.sound
Verif.Platform.C48_argument_violated: propext, Classical.choice, Quot.sound
Verif.Platform.C48_set_violated: propext, Classical.choice, Quot.sound
Verif.Platform.C48_text_violated: propext, Classical.choice, Quot.sound
Verif.Builders.C49_partial: propext, Quot.sound
Verif.Builders.C49_words_partial: propext, Quot.sound
Verif.Builders.C49_text_violated: propext, Classical.choice, Quot.sound
Verif.Builders.C50_partial: propext, Classical.choice, Quot.sound
Verif.Builders.C50_tried: propext, Classical.choice, Quot.sound
Verif.Builders.C50_windows_partial: propext, Classical.choice, Quot.sound
Verif.Builders.C50_current_violated: propext, Classical.choice, Quot.sound
Verif.Builders.C50_windows_violated: propext, Classical.choice, Quot.sound
Verif.Execute.C51_returned: propext, Quot.sound
Verif.Execute.C51_raised_partial: propext, Quot.sound
Verif.Execute.C51_reasons: propext, Quot.sound
Verif.Execute.C51_killed: propext, Quot.sound
Verif.Execute.C51_timer_stopped: propext, Quot.sound
Verif.Execute.C51_race_violated: propext
Verif.Console.C52_all: propext, Quot.sound
Verif.Console.C52_order_partial: propext, Quot.sound
Verif.Console.C52_nested_violated: propext, Classical.choice, Quot.sound
Verif.Console.C52_unbuffered_violated: propext, Classical.choice, Quot.sound
Verif.Console.C53_partial: propext, Quot.sound
Verif.Console.C53_violated: propext, Classical.choice, Quot.sound
Verif.Gcc.C54_order_partial: propext, Quot.sound
Verif.Gcc.C54_total: propext, Classical.choice, Quot.sound
Verif.Gcc.C54_name_violated: propext, Classical.choice, Quot.sound
Verif.Gcc.C54_cycle_violated: propext, Classical.choice, Quot.sound
Verif.Gcc.C55_once_partial: propext, Classical.choice, Quot.sound
Verif.Gcc.C55_order_violated: propext, Classical.choice, Quot.sound
Verif.Gcc.C56_partial: propext, Classical.choice, Quot.sound
Verif.Gcc.C56_blank_violated: propext, Classical.choice, Quot.sound
Verif.Gcc.C56_target_violated: propext, Classical.choice, Quot.sound
Verif.Gcc.C56_dollar_violated: propext, Classical.choice, Quot.sound
Verif.Persist.C57_refl: propext
Verif.Persist.C57_symm_partial: propext, Quot.sound
Verif.Persist.C57_trans_partial: propext, Quot.sound
Verif.Persist.C57_symm_violated: propext, Classical.choice, Quot.sound
Verif.Persist.C57_trans_violated: propext
Verif.Alias.C58_partial: propext, Classical.choice, Quot.sound
Verif.Alias.C58_sqlite_partial: propext, Classical.choice, Quot.sound
Verif.Alias.C58_found_partial: propext, Classical.choice, Quot.sound
Verif.Alias.C58_rerun_partial: propext, Classical.choice, Quot.sound
Verif.Alias.C58_function_violated: propext
Verif.Alias.C58_function_lost_violated: propext
Verif.Alias.C58_caller_violated: propext
Verif.Calls.C59_partial: propext, Classical.choice, Quot.sound
Verif.Calls.C59_empty_partial: propext, Classical.choice, Quot.sound
Verif.Calls.Bad.C59_nested_violated: propext
Verif.Calls.Bad.C59_function_violated: propext
Verif.Calls.Bad.C59_failed_violated: propext
Verif.Calls.Bad.C59_shared_violated: propext
Verif.Calls.Bad.C59_edited_violated: propext
Verif.Calls.Bad.C59_deleted_violated: propext
Verif.Calls.C59_sqlite_partial: propext, Classical.choice, Quot.sound
Verif.Calls.Header.C59_sqlite_header_violated: propext, Classical.choice, Quot.sound
Verif.Text.C60_file_partial: propext, Classical.choice, Quot.sound
Verif.Text.C60_header_partial: propext, Classical.choice, Quot.sound
Verif.Text.C60_substitute_partial: propext, Quot.sound
Verif.Text.C60_substitute_one_partial: propext, Classical.choice, Quot.sound
Verif.Text.C60_empty_violated: propext, Classical.choice, Quot.sound
Verif.Text.C60_substitute_marked_partial: propext, Quot.sound
Verif.Text.C60_newlines_violated: propext, Classical.choice, Quot.sound
Verif.Text.C60_zero_violated: propext, Classical.choice, Quot.sound
Verif.Text.C60_twice_violated: propext, Classical.choice, Quot.sound
Verif.DB.C61_failed_store_violated: propext, Quot.sound
Verif.DB.C61_sqlite_partial: propext, Classical.choice, Quot.sound
Verif.DB.C62_declared: propext, Classical.choice, Quot.sound
Verif.DB.C62_external_partial: propext, Classical.choice, Quot.sound
Verif.DB.C05_sqlite_violated: propext, Quot.sound
Verif.Main.C63_failed_partial: propext, Classical.choice, Quot.sound
Verif.Main.C63_reports: propext
Verif.Alias.C64_hit_partial: propext, Classical.choice, Quot.sound
Verif.Alias.C64_result_violated: propext
Verif.Path.C65_addprefix: propext, Quot.sound
Verif.DB.C66_hit_sound_partial: propext, Classical.choice, Quot.sound
Verif.DB.C66_edited_source_partial: propext, Classical.choice, Quot.sound
Verif.DB.C66_other_text_partial: propext, Classical.choice, Quot.sound
Verif.DB.C66_rollback_violated: propext, Quot.sound
Verif.Naming.C67_names_partial: propext, Classical.choice, Quot.sound
Verif.Naming.C67_hit_partial: propext, Classical.choice, Quot.sound
Verif.Naming.C67_super_violated: propext
Verif.Naming.C67_same_name_violated: propext
Verif.Naming.C67_module_violated: propext
Verif.Naming.C68_found_partial: propext, Quot.sound
Verif.Naming.C68_super_violated: propext
Verif.Naming.C69_text_partial: propext, Classical.choice, Quot.sound
Verif.Naming.C69_edit_partial: propext, Classical.choice, Quot.sound
Verif.Naming.C69_constructor_violated: propext, Quot.sound
Verif.Naming.C69_decorator_violated: propext, Quot.sound
Verif.Functools.C70_declared_partial: propext, Classical.choice, Quot.sound
Verif.Functools.C70_text_violated: propext, Classical.choice, Quot.sound
Verif.Functools.C70_varargs_violated: propext, Classical.choice, Quot.sound
Verif.Functools.C70_annotation_violated: propext, Classical.choice, Quot.sound
Verif.Functools.C70_constructor_violated: propext, Classical.choice, Quot.sound
Verif.Ocaml.C71_sound: propext, Classical.choice, Quot.sound
Verif.Ocaml.C71_complete: propext, Classical.choice, Quot.sound
Verif.Ocaml.C71_interface_partial: propext, Classical.choice, Quot.sound
Verif.Ocaml.C71_interface_violated: propext, Classical.choice, Quot.sound
Verif.Ocaml.C71_modules: propext, Quot.sound
Verif.Ocaml.C72_native: propext, Quot.sound
Verif.Ocaml.C72_native_total: propext, Classical.choice, Quot.sound
Verif.Ocaml.C72_byte: propext, Classical.choice, Quot.sound
Verif.Ocaml.C72_byte_total_partial: propext, Classical.choice, Quot.sound
Verif.Ocaml.C72_cycle_violated: propext, Classical.choice, Quot.sound
Verif.Ocaml.C72_stale_violated: propext
Verif.Ocaml.C73_link_partial: propext, Classical.choice, Quot.sound
Verif.Ocaml.C73_pack_violated: propext, Classical.choice, Quot.sound
Verif.Ocaml.C73_shadow_violated: propext, Classical.choice, Quot.sound
Verif.Ocaml.C74_symbols: propext, Classical.choice, Quot.sound
Verif.Ocaml.C74_last_partial: propext, Classical.choice, Quot.sound
Verif.Ocaml.C74_order_partial: propext, Classical.choice, Quot.sound
Verif.Ocaml.C74_definers_violated: propext, Classical.choice, Quot.sound
Verif.Ocaml.C74_circle_violated: propext
Verif.Ocaml.C74_iterator_violated: propext, Classical.choice, Quot.sound
Verif.Config.C75_fields_partial: propext, Classical.choice, Quot.sound
Verif.Config.C75_bases_partial: propext, Classical.choice, Quot.sound
Verif.Config.C75_bases_violated: propext, Classical.choice, Quot.sound
Verif.Config.C75_del_violated: propext, Classical.choice, Quot.sound
Verif.Config.C76_namespace_partial: propext, Classical.choice, Quot.sound
Verif.Config.C76_inherited_violated: propext, Classical.choice, Quot.sound
Verif.Config.C76_base_violated: propext, Classical.choice, Quot.sound
Verif.Config.C76_twice_violated: propext, Classical.choice, Quot.sound
Verif.Config.C76_struct_violated: propext, Classical.choice, Quot.sound
Verif.Config.C76_property_violated: propext, Classical.choice, Quot.sound
Verif.Config.C77_outcome: propext, Classical.choice, Quot.sound
Verif.Config.C77_type: propext, Quot.sound
Verif.Config.C77_int_type: propext, Quot.sound
Verif.Config.C77_type_fails: propext, Classical.choice, Quot.sound
Verif.Config.C77_output_violated: propext, Classical.choice, Quot.sound
Verif.Config.C77_declared_violated: propext, Classical.choice, Quot.sound
Verif.Config.C78_listing_partial: propext, Classical.choice, Quot.sound
Verif.Config.C78_property_violated: propext, Classical.choice, Quot.sound
Verif.Config.C79_same_partial: propext, Classical.choice, Quot.sound
Verif.Config.C79_names: propext, Classical.choice, Quot.sound
Verif.Config.C79_edit_violated: propext, Quot.sound
Verif.Config.C79_shipped_violated: propext, Classical.choice, Quot.sound
Verif.Gcc.C80_sets: propext, Classical.choice, Quot.sound
Verif.Gcc.C80_includes_partial: propext, Classical.choice, Quot.sound
Verif.Gcc.C80_words: propext, Classical.choice, Quot.sound
Verif.Gcc.C80_flags_partial: propext, Classical.choice, Quot.sound
Verif.Gcc.C80_compile: propext, Classical.choice, Quot.sound
Verif.Gcc.C80_flags_violated: propext, Classical.choice, Quot.sound
Verif.Gcc.C80_macro_violated: propext, Classical.choice, Quot.sound
Verif.Gcc.C80_last_violated: propext, Classical.choice, Quot.sound
Verif.Gcc.C81_libs_partial: propext, Classical.choice, Quot.sound
Verif.Gcc.C81_paths_partial: propext, Classical.choice, Quot.sound
Verif.Gcc.C81_found_partial: propext, Classical.choice, Quot.sound
Verif.Gcc.C81_order_violated: propext, Classical.choice, Quot.sound
Verif.Gcc.C81_hidden_violated: propext, Classical.choice, Quot.sound
Verif.Gcc.C81_libpaths_violated: propext, Classical.choice, Quot.sound
Verif.Gcc.C81_shared_violated: propext, Classical.choice, Quot.sound
Verif.Gcc.C81_cwd_violated: propext, Classical.choice, Quot.sound
Verif.Gcc.C81_name_violated: propext, Classical.choice, Quot.sound
Verif.Gcc.C82_members_partial: propext, Classical.choice, Quot.sound
Verif.Gcc.C82_removed_violated: propext, Classical.choice, Quot.sound
Verif.Gcc.C82_samename_violated: propext, Classical.choice, Quot.sound
Verif.Gcc.C82_pattern_violated: propext, Classical.choice, Quot.sound
Verif.Gcc.C83_objects_partial: propext, Quot.sound
Verif.Gcc.C83_asked: propext
Verif.Gcc.C83_objects_violated: propext, Classical.choice, Quot.sound
Verif.Gcc.C83_linked_partial: propext, Classical.choice, Quot.sound
Verif.Gcc.C83_linked_violated: propext, Classical.choice, Quot.sound
Verif.Calls.C84_incremental_partial: propext, Classical.choice, Quot.sound
Verif.Calls.C84_uptodate_partial: propext, Classical.choice, Quot.sound
Verif.Calls.C84_build_partial: propext, Classical.choice, Quot.sound
Verif.Calls.Bad.C84_back_violated: propext
Verif.Calls.Bad.C84_shadow_violated: propext
Verif.Functools.link_declares: propext, Classical.choice, Quot.sound
Verif.Functools.link_declared_partial: propext
Verif.FileOps.C85_copy_partial: propext, Quot.sound
Verif.FileOps.C85_copy_succeeds_partial: propext, Quot.sound
Verif.FileOps.C85_dir_violated: propext, Classical.choice, Quot.sound
Verif.FileOps.C85_root_violated: propext, Classical.choice, Quot.sound
Verif.FileOps.C86_move_partial: propext, Quot.sound
Verif.FileOps.C86_repeat_violated: propext, Quot.sound
Verif.FileOps.C87_copy_partial: propext, Quot.sound
Verif.FileOps.C87_dirs_violated: propext, Quot.sound
Verif.FileOps.C87_slash_violated: propext, Classical.choice, Quot.sound
Verif.FileOps.C87_new_file_violated: propext
Verif.Guess.C88_first: propext, Classical.choice, Quot.sound
Verif.Guess.C88_nothing: propext, Classical.choice, Quot.sound
Verif.Guess.C88_raised: propext, Quot.sound
Verif.Guess.C88_compiler_partial: propext, Classical.choice, Quot.sound
Verif.Guess.C88_table_c: propext
Verif.Guess.C88_table_cxx_partial: propext
Verif.Guess.C88_identify: propext, Classical.choice, Quot.sound
Verif.Guess.C88_shared_violated: propext, Classical.choice, Quot.sound
Verif.Guess.C88_unidentified_violated: propext
Verif.Guess.C88_changed_violated: propext, Classical.choice, Quot.sound
Verif.Library.C89_eq: propext
Verif.Library.C89_hash: propext
Verif.Library.C89_ne_partial: propext
Verif.Library.C89_ne_violated: propext
Verif.Msvc.C90_output_partial: propext, Classical.choice, Quot.sound
Verif.Msvc.C90_drive_violated: propext, Classical.choice, Quot.sound
Verif.Msvc.C90_language_violated: propext, Classical.choice, Quot.sound
Verif.Msvc.C91_libs_partial: propext, Classical.choice, Quot.sound
Verif.Msvc.C91_external: propext, Classical.choice, Quot.sound
Verif.Msvc.C91_import: propext, Classical.choice, Quot.sound
Verif.Msvc.C91_paths_violated: propext, Classical.choice, Quot.sound
Verif.Msvc.C91_own_violated: propext, Classical.choice, Quot.sound
Verif.DB.SqliteVersion.C92_kept_partial: propext
Verif.DB.SqliteVersion.C92_closed: propext
Verif.DB.SqliteVersion.C92_new_violated: propext
Verif.Text.C93_format: propext, Classical.choice, Quot.sound
Verif.Text.C93_raised: propext
Verif.Text.C93_template: propext, Classical.choice, Quot.sound
Verif.Text.C93_undefined: propext, Classical.choice, Quot.sound
Verif.Text.C93_key: propext, Classical.choice, Quot.sound
Verif.Main.Process.C94_status: propext, Quot.sound
Verif.Main.Process.C94_saved: propext
Verif.Main.Process.C95_pickle: propext, Quot.sound
Verif.Main.Process.C95_sqlite: propext, Quot.sound
Verif.Main.Process.C96_pickle_partial: propext, Classical.choice, Quot.sound
Verif.Main.Process.C96_sqlite_violated: propext
Verif.Main.Process.C96_rebuild_violated: propext
Verif.Main.Process.C97_pickle: propext
Verif.Main.Process.C97_sqlite: propext
Verif.Main.Process.C97_cache: propext
Verif.Execute.Command.C98_partial: propext
Verif.Execute.Command.C98_quote_violated: propext, Classical.choice, Quot.sound
Verif.Execute.Command.C98_word_violated: propext, Classical.choice, Quot.sound
Verif.Execute.Command.C98_special_violated: propext
Verif.Execute.Command.C99_given_partial: propext, Quot.sound
Verif.Execute.Command.C99_run_partial: propext, Quot.sound
Verif.Execute.Command.C99_environment_violated: propext, Quot.sound
Verif.Execute.Command.C99_indirect_violated: propext, Quot.sound
