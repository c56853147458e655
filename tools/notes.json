{
 "C07": {
  "note": "all six layouts, all field values"
 },
 "C08": {
  "status": "partial",
  "note": "False of the code for the line table between 3.8/3.9 and 3.10+: C08_full_false; every other shared field is preserved (C08_code_cross_version_partial), C08_linetable_actual says what happens to the line table."
 },
 "C11": {
  "status": "partial",
  "note": "False of the code: 'wb' and 'x' modes fail, carriage returns are lost (C11_full_false, C11_binary_write_fails, C11_exclusive_fails, C11_carriage_returns_lost); proved for the remaining modes and contents."
 },
 "C17": {
  "status": "partial",
  "note": "False of the code for runtime and dotted module names (C17_full_false, C17_runtime_always_fails, C17_dotted_alters_original); proved for plain names."
 },
 "C22": {
  "note": "find_chain/children/parents/parent proved for every graph; parents does not honour its ignore argument (C22_parents_does_not_honour_ignore)."
 },
 "C24": {
  "status": "partial",
  "note": "False of the code: local names containing _GLOBAL are reported (C24_spurious_name) and recurse=False still reports nested names (C24_recurse_false_wrong). Proved exact for code where only global instructions display _GLOBAL; no used name is ever missed (C24_no_name_missed)."
 },
 "C25": {
  "note": "general statement, and exact transitive characterisation when all functions share one namespace"
 },
 "C26": {
  "status": "partial",
  "note": "False of the code for mutually recursive functions and recursive closures (C26_cycle_never_returns, C26_full_false). Exactly when it returns is proved for recurse=False (C26_no_recurse_iff_partial), for functions without closures in any modules (C26_no_closures_iff_partial) and for all functions of one module (C26_one_module_iff_partial)."
 },
 "C28": {
  "status": "partial",
  "note": "never raises: proved. Filters unchanged: false when the catch-all filter already exists or the comparison raises (C28_filters_lost, C28_filters_leak); proved otherwise."
 },
 "C30": {
  "status": "partial",
  "note": "badobjects/badtypes proved. baditems misses failing items equal to None (C30_baditems_misses). errors disagrees with pickles when the class is re-created (C30_errors_disagrees)."
 },
 "C32": {
  "status": "partial",
  "note": "False of the code: from 1024 bytes on the unit is one too large and from 2^50 on formatting raises (C32_actual, C32_full_false); correct below 1024 bytes."
 },
 "C33": {
  "status": "partial",
  "note": "False of the code inside an already redirected block (C33_nested_redirect, C33_full_false) and for a NOTSET level (C33_notset_not_restored); proved whenever stderr's handler is attached on entry, any body."
 },
 "C35": {
  "status": "partial",
  "note": "The tag logic is right for every text (C35_tag_read_back); false end to end for non-ASCII texts because dump encodes Latin-1 and load decodes UTF-8 (C35_latin1_not_utf8, C35_wrong_name, C35_not_encodable); proved end to end for ASCII."
 },
 "C20": {
  "status": "partial",
  "note": "Restoring pickle's table is false when the user registered a save function that is not dill's own (C20_user_function_leaks); proved for dill's own functions (C20_revert_restores_partial), and C20_revert_exact says exactly what else can remain."
 },
 "C06": {
  "note": "Hypothesis Sane: nobody has taken the names find_class treats specially (met by C06_sane_example, and shown necessary by C06_reserved_names_hijacked), EnumMeta/ExceptHookArgs still where dill found them."
 },
 "C18": {
  "note": "Exact for every protocol, name and chunk length. A name too long for the peeked 256 bytes is an error (C18_long_name_unloadable); the module dill._dill itself is misidentified at protocol 4+ (C18_self_misidentified: its name is fetched from the memo, outside the property's wording 'the name fits in the peeked chunk')."
 },
 "C01": {
  "status": "partial",
  "note": "Exact for graphs without circular functions or classes (C01_paths_exact_partial); a function or class that is needed for its own creation is pickled by its name (C01_class_of_itself_by_name), C01_isomorphic_copy_partial and C01_paths_partial are about all graphs and allow exactly that. Items of an object with list items that can be reached from its own class or constructor arguments may be repeated (C01_items_repeated shows it, C01_no_other_paths_partial excludes it). Well-formedness hypotheses (Spec/WF.lean): see DESIGN.md. C01_bytes_partial: the same through the bytes of a pickle at protocols 2 to 5, any framing."
 },
 "C02": {
  "note": "Sharp: C02_creation_cycle_overflows shows that a cycle through things that must exist before their container overflows every limit."
 },
 "C44": {
  "status": "partial",
  "note": "Lock: full. RLock held by the copying thread: the copy is in the same state, after any history; held by another thread: refused with UnpicklingError. False for a free RLock: C44_free_rlock_stuck proves that its copy looks free but can never be acquired."
 },
 "C45": {
  "status": "partial",
  "note": "Weak references and proxies in the loaded graph: on top of C01, live references for graphs without circular functions or classes. Finding the referent of a proxy: proved when str(referent) does not read like an address; C45_proxy_misdirected shows the property false otherwise."
 },
 "C46": {
  "status": "partial",
  "note": "Contents and order: full, both strategies. A view of an exact dict stays a view of the copied dict; for OrderedDict and other subclasses it does not: C46_odict_view_detached."
 },
 "C49": {
  "status": "partial",
  "note": "Soundness, calling, register_shim, move_to: full. A shim whose default is itself a shim that cannot be resolved fails to load although the attribute exists: C49_eager_default_fails; C49_load_complete_partial assumes resolvable defaults."
 },
 "C40": {
  "status": "partial",
  "note": "Full whenever the class's name does not import as a class or module; when the name leads to another class or a submodule that object is returned instead: C40_full_false. C40_same_iff says exactly when the copy is right."
 },
 "C41": {
  "status": "partial",
  "note": "Attributes, defaults, annotations, etc. in full. __qualname__ when it differs from the code object's (functools.wraps) is lost: C41_qualname_lost; a removed docstring reappears: C41_doc_reappears. C41_same_iff is exact for both."
 },
 "C39": {
  "status": "partial",
  "note": "Proved for every reachable class hierarchy whose saved classes are ordinary (Ordinary, Saved, Stable in Props/TypeDict.lean), and without Stable for single inheritance. False in general; each exclusion is a real failure with its own theorem: C39_hash_lost (__hash__ = Base.__hash__ beside __eq__ makes the copy unhashable), C39_generic_parent_lost (a subclass of a generic class loses its parent), C39_chosen_base_lost, C39_pinned_method_lost, C39_private_slot_fails, C39_replaced_slot_lost, C39_own_dict_lost, C39_namedtuple_methods_lost. Metaclasses, ABC registries, __init_subclass__ hooks not modelled."
 },
 "C36": {
  "status": "partial",
  "note": "Full statement false: outdent counts characters of leading whitespace of the first line only and removes that many from lines with tabs (C36_tab_deletes_code), indent skips/changes blank lines so outdent is not an exact inverse (C36_not_inverse), and indent may indent nothing (C36_nothing_indented). Proved under the hypotheses named in the _partial theorems. ASCII whitespace."
 },
 "C47": {
  "status": "proved",
  "note": "Termination and containment for every block reader returning non-empty blocks; getblock/regex/indentsize are parameters. C47_wrong_twin records that the returned line number may be that of an identical earlier decorated twin."
 },
 "C48": {
  "status": "proved",
  "note": "Statement denoted by the string given by an independent parser. _intypes and exec are parameters."
 },
 "C50": {
  "status": "partial",
  "note": "False as stated: an undotted head whose import fails is returned anyway (C50_failing_import_returned). C50_verified_partial says what verification does guarantee."
 },
 "C37": {
  "status": "proved",
  "note": "Objects keep their kind (has attributes / sequence / mapping); sets modelled by their iteration order; numpy not modelled; release_gone is C97. C37_history covers every history of memorise calls, forced or not."
 },
 "C38": {
  "status": "proved",
  "note": "Graphs finite for termination; Python's recursion limit not modelled."
 },
 "C51": {
  "status": "partial",
  "note": "Whether anything is reported is exact on every graph (C51_reports_iff); which attributes, and the items, exact when no object leads back to itself (C51_exact_acyclic_partial); in general everything changed directly is listed and everything listed is justified (C51_listed_partial), but an attribute leading to a changed object through a cycle may be missed (C51_missed_attribute)."
 },
 "C52": {
  "status": "partial",
  "note": "False for modules not in sys.modules (made at run time: another module of that name is returned, or loads fails) and for submodules hidden by a class of the same name in the package; proved when the module is imported under its name and bound in its package."
 },
 "C54": {
  "status": "partial",
  "note": "False: directory names are compared as string prefixes, so /opt/pyproj counts as part of /opt/py. Proved: installed modules are always saved by name; the converse where prefixes end at path separators."
 },
 "C55": {
  "status": "partial",
  "note": "False: a dict merely equal to the main namespace (a copy) is replaced by the live namespace. Proved for all other dicts."
 },
 "C56": {
  "status": "partial",
  "note": "False: a '__name__' string is imported at dump time; {'__name__': ''} cannot be pickled. Proved for dicts without such a key or naming an imported module."
 },
 "C57": {
  "status": "partial",
  "note": "False for ranges with a bound beyond sys.get_int_max_str_digits() digits: dumps raises (C57_big_range_raises). Proved for all others. C57_roundtrip_iff is exact."
 },
 "C58": {
  "status": "partial",
  "note": "Proved in full from Python 3.9 on; before, typed is lost (dill's OLD39 branch)."
 },
 "C59": {
  "status": "partial",
  "note": "False for capsules in submodules (__import__ returns the top-level package): duplicated, or loading fails. Proved for module.attribute names; soundness in general. C59_existing_iff says exactly when an existing capsule is returned, for every dotted name."
 },
 "C60": {
  "status": "partial",
  "note": "False when the class has the name of a class visible in dill._dill that has such an attribute. Proved otherwise. C60_same_iff is exact."
 },
 "C61": {
  "status": "partial",
  "note": "Witnesses: a removed doc string returns, the copy's doc is frozen, attributes of static/class methods are lost. Proved: functions, kind, doc otherwise. C61_property_iff and C61_wrapper_iff are exact."
 },
 "C62": {
  "status": "partial",
  "note": "Tuple[()] from 3.11+ loaded before 3.11 is not Tuple[()]. Proved for all other version pairs and argument lists. C62_meaning_iff is exact."
 },
 "C63": {
  "status": "partial",
  "note": "False for renamed functions, coroutine functions with a lambda in the header, multi-line decorators with a lambda, lambdas inside calls (witnesses). Proved: functions with single-line decorators, assigned lambdas, classes, instances; for every object nothing of the source is lost."
 },
 "C64": {
  "status": "partial",
  "note": "Proved as an equivalence: the right expression is evaluated exactly when the class name has no underscore. False with an underscore (witness)."
 },
 "C65": {
  "status": "partial",
  "note": "False when the source of a global variable cannot be had: the fallback is about the dict of globals (witness). Proved otherwise, with the choice of the first way and success."
 },
 "C66": {
  "status": "partial",
  "note": "Proved when the text runs in the same module or the name does not occur. False for names of another length (every printable short name) and for data that contains the name."
 },
 "C67": {
  "status": "proved",
  "note": "Exact text for every pickle text and alias without newlines; C67_same_pickle: the bytes literal in the text reads back as exactly the pickle."
 },
 "C05": {
  "status": "proved",
  "note": "C05_bytes_exist: every successful run has a byte form at protocols 2 to 5, cut into frames anywhere, if strings and bytes are below 4 GiB, integers below 2 GiB, names have no newline, there are no sets below protocol 4, and at protocol 2 no bytes and only ASCII names."
 },
 "C68": {
  "status": "proved",
  "note": "Protocols 3, 4 and 5, any framing, any choice of memoised names; graphs as in C01."
 },
 "C69": {
  "status": "proved",
  "note": "Protocols 3, 4 and 5, any framing, any choice of memoised names; graphs as in C01."
 },
 "C70": {
  "status": "partial",
  "note": "False: the file is truncated before pickling starts (C70_failed_dump_destroys). Proved: errors before opening leave it; afterwards it holds exactly what the pickler wrote, and such a remainder never loads (C69_interrupted, protocols 2 to 5)."
 },
 "C71": {
  "status": "proved",
  "note": "Nobody else acts on the file system (C12 covers that); close does not fail."
 },
 "C72": {
  "status": "partial",
  "note": "Both names are accepted when the new one is falsy (C72_both_names_accepted); everything else proved."
 },
 "C73": {
  "status": "partial",
  "note": "False for paths with white space (C73_path_with_space); proved for all other paths and all bytes."
 },
 "C74": {
  "status": "partial",
  "note": "The clause on failed dumps is false for delete=False (C74_failed_dump_leaves_file); the rest proved."
 },
 "C75": {
  "status": "partial",
  "note": "False with recurse=True and for functions whose __module__ is another module (C75_wraps_copies_namespace); proved otherwise, when the namespace is not equal to the main namespace by coincidence (C55)."
 },
 "C76": {
  "status": "partial",
  "note": "clear_memo after a failed dump does not restore the pickler (C76_failed_dump_spoils_pickler); proved for all histories without failed dumps."
 },
 "C77": {
  "status": "partial",
  "note": "false in general (four witnesses); proved when the pickle is closed under subclasses of its ABCs, registrations are with pickled ABCs or already known to the loader, and no plain base of an ABC is registered."
 },
 "C78": {
  "status": "partial",
  "note": "false for names without 'Type' and for registered objects with pickleable=False (two witnesses); proved for all other names and all histories."
 },
 "C80": {
  "status": "partial",
  "note": "false for async functions, lambda*args, typed-in functions with overlapping names, duplicate indented classes (witnesses); proved for def, decorated def and lambda in files, for the last def line with the name in the history, for classes at top level and for classes defined once."
 },
 "C81": {
  "note": "WF graphs, as C01: paths through a function or class that is needed for its own creation may lead to the live object of that name (NamedOn); list items of self-made objects may be repeated, which paths of the saved session do not see.",
  "status": "partial"
 },
 "C82": {
  "status": "partial",
  "note": "Full statement false (three witnesses: C82_name_reused, C82_wrong_function, C82_recursive_inner). Proved: the layout of the text for every closure when the globals' sources can be had (C65's defect excluded) and texts end at the end of a line; existence of the answer; the target last without decorated closure functions; values when no later part assigns the name."
 },
 "C83": {
  "status": "partial",
  "note": "Soundness and the None case in full; found when the name occurs in the block's text (C83_renamed otherwise)."
 },
 "C84": {
  "status": "partial",
  "note": "Soundness in full; completeness when different nested code objects are not equal (C84_equal_code_missed otherwise)."
 },
 "C85": {
  "status": "partial",
  "note": "False in general (five witnesses). Proved: where the name comes from, in general; the right closure when all matching lines bind it; the answer when exactly one line matches."
 },
 "C03": {
  "note": "Every copied cell; a cell that is only reached through a function or class pickled by its name (C01) is not copied."
 },
 "C04": {
  "note": "Every copied function; functions pickled by their name (C01) have no copied globals. C04_own_default_raises_keyerror: with a function among its own defaults dumps raises KeyError."
 },
 "C86": {
  "note": "C86_failures_have_a_reason (any graph, any limit), C86_dumps_succeeds, C86_round_trip (dumps, loads, exact copy)."
 },
 "C87": {
  "status": "partial",
  "note": "False in general (C87_full_false, C87_takes_over_the_descriptor, C87_file_fmode_clobbers, C87_pickling_closes); holds when no open file has that number (C87_number_not_in_use_partial); pickling is harmless without FILE_FMODE."
 },
 "C09": {
  "status": "partial",
  "note": "Proved for every ordinary name (C09_handle_fmode, C09_each_mode, C09_missing) and open standard streams; false for a closed standard stream (loading closes ours: C09_closed_stream_closes_ours) and for a file whose name is <stdin>, <stdout> or <stderr> (C09_file_named_like_a_stream)."
 },
 "C88": {
  "status": "partial",
  "note": "False in general (C88_full_false, C88_subclass_copies_namespace, C88_stock_pickler_raises); proved: callers that allow subclasses, the namespace of __main__ outside sessions, the main module's contents, picklers whose module name does not mention dill."
 },
 "C89": {
  "status": "proved",
  "note": "Three cases: imported module (C89_imported), run-time module given as object (C89_runtime_object), run-time module with no target (C89_runtime_new). Hypothesis Harmless: the pickled values import only modules that exist (the failing case is C16)."
 },
 "C90": {
  "status": "partial",
  "note": "False when the class gets its reduction after its first pickle (C90_history_matters, C90_full_false) or through copyreg (C90_copyreg_ignored), and for attributes deleted after __array_finalize__ set them (C90_deleted_attribute_returns). Proved for every other history."
 },
 "C91": {
  "status": "partial",
  "note": "Proved for objects their module holds under their own name, assigned lambdas, modules, instances of top-level classes with an object-style or Class(...) repr, builtins and builtin data; false for methods, nested classes, data with angle brackets or nan/inf in their text, unassigned lambdas (witness theorems C91_*_misses)."
 },
 "C92": {
  "status": "partial",
  "note": "The order of the ways and the text for instances are proved in full; the text is not executable for numbers with the default options (C92_unverified_number)."
 },
 "C93": {
  "status": "partial",
  "note": "Proved for lambdas without free variables, when no later line with a lambda is compared by the same bytecode (both directions); for closures exactly which lines are taken (C93_closure_taken_partial) and when the search raises (C93_closure_line); false otherwise, by C93_constants_ignored, C93_uncompilable_taken, C93_closure_not_found, C93_closure_raises, C93_comment_raises."
 },
 "C94": {
  "status": "partial",
  "note": "Proved in full for classes without hooks; for classes with hooks: attributes no hook assigns are kept, the others are characterised exactly (C94_hook_attributes, C94_unchanged_iff, C94_loads_iff). False in general: C94_keyword_lost, C94_registry_emptied, C94_required_keyword_fails, C94_enum_never_loads."
 },
 "C95": {
  "status": "partial",
  "note": "Proved in full for one thread (C95_one_thread_partial) and, for any number of threads, exactly which function is called (C95_calls_the_last_partial). False in general: C95_race, C95_clobbers."
 },
 "C96": {
  "status": "partial",
  "note": "C96_imported_is_memorised and C96_exact hold for every import; C96_since_import_partial needs that nothing a nested import could see was touched after that import returned; false otherwise (C96_circular_import)."
 },
 "C97": {
  "status": "partial",
  "note": "Exact where the call itself holds three references (C97_releases_gone_partial); false on CPython up to 3.13 (C97_releases_nothing) and on PyPy (C97_forgets_everything); identities can be reused (C97_number_reused)."
 },
 "C98": {
  "status": "partial",
  "note": "Holds without refimported for every schedule (C98_snapshot_partial); with refimported when nobody touches the module (C98_ref_quiet_partial), or when nothing is imported and others only rebind (C98_ref_nothing_imported_partial); names only when others only rebind (C98_ref_reassigned_partial), values always (C98_ref_values_partial); false otherwise (C98_ref_torn, C98_ref_raises, C98_ref_name_lost)."
 },
 "C99": {
  "status": "partial",
  "note": "Exact for every unbound proxy (C99_unbound) and for every bound one whose class is unchanged and whose bases do not define __self__ or __thisclass__ (C99_super_partial, C99_just_made_partial); which class is searched in general: C99_start_recomputed; false otherwise (C99_shadowed_self, C99_shadowed_self_other, C99_class_changed, C99_class_changed_fails)."
 },
 "C53": {
  "status": "partial",
  "note": "Exact whenever the module being restored has no global named __setstate__ (C53_contents_overlay_partial); otherwise that global is called instead (C53_setstate_called) and nothing need be restored (C53_setstate_hijacks)."
 },
 "C100": {
  "status": "partial",
  "note": "Proved for all schedules in which calls for one name do not overlap, calls for different names interleaving freely (C100_separate_partial); every schedule: names and sessions are never mixed across module names (C100_names_not_mixed), every call ends (C100_ends). The full claim is false of the code: C100_overlap, C100_overlap_fails."
 },
 "C101": {
  "status": "partial",
  "note": "Proved for every schedule in which blocks nest (C101_nested_partial, C101_dump_functions_partial) or do not overlap (C101_capture_apart_partial). Otherwise false of the code: C101_stdout_lost, C101_warnings_off, C101_filters_changed, C101_filter_of_program_lost, C101_pickles_overlap."
 },
 "C102": {
  "status": "partial",
  "note": "CONTENTS_FMODE and HANDLE_FMODE: proved for all interleavings and crash points (C102_contents_harmless, C102_handle_harmless), other files never touched (C102_only_that_file). FILE_FMODE: old contents or a prefix of the pickled ones (C102_file_prefix_partial); the full claim is false of the code (C102_file_killed, C102_failed_load_empties)."
 },
 "C103": {
  "status": "proved",
  "note": "Proved for whole pickles of the Core model, including the exception raised if dumps fails, and for the bytes. Iteration order is part of the object; two theorems show that it matters."
 },
 "C104": {
  "status": "partial",
  "note": "A consistent snapshot is false of the code (C104_list_torn, C104_dict_torn, C104_moment_differs, C104_endless); the conditions under which a container is a snapshot are proved for every schedule."
 },
 "C105": {
  "status": "partial",
  "note": "Exact for every name and protocol: C105_old_protocols_iff, C105_new_protocols_iff and C105_namespace_iff say precisely which references come back. The property itself is false at protocols 0 to 2 (witnesses). Only which name is looked up is modelled, not the lookup; top-level names."
 },
 "C106": {
  "status": "partial",
  "note": "False for a key from which its container can be reached (C106_early_hash, C106_frozenset). Proved for all other keys of all graphs, and for the keys of a dumped dict or set even if they refer back to it (C106_top_container); C106_every_key says that the log misses no key. The same at every protocol (C106_every_protocol_partial, C106_every_key_every_protocol), except that up to protocol 3 even a dumped set is made from its elements (C106_old_sets). Functions, classes and other atoms are hashed by identity; constructors are assumed not to hash their arguments."
 },
 "C107": {
  "status": "partial",
  "note": "False for a reader that needs several reads and for two simultaneous dumps of different sessions (C107_torn_load, C107_torn_file). Proved for all schedules: the file at any moment loads as the old file, as the new session or not at all (C107_any_moment); a finished dump has left its session (C107_finished); a reader that opens after the dump (C107_later_reader) or whose buffer takes the old file in one read (C107_one_read_partial) loads old, new or nothing; what a reader gets is always old head plus new bytes in place (C107_splice); any number of dumps of the same bytes leave them (C107_same_session), and no byte appears that no dump has at this place, but zeros (C107_bytes_from_dumps). POSIX open/read/write are trusted definitions; the file is not removed or renamed by others."
 },
 "C108": {
  "status": "partial",
  "note": "False when the class is pickled by reference and the function by value (C108_function_apart). Proved for every graph (C108_everywhere_partial): self and function of the copied method are where every other path to them leads, also from the object through its class, unless a reference to the name of a class or function was written on the way; and without that exception for graphs without circular functions or classes (C108_bound_method_partial)."
 },
 "C109": {
  "status": "proved",
  "note": "About the byte format: loadFileAt P has only the opcodes of the protocols up to P. That the names in a pickle (dill._dill helpers, modules) exist in the other Python, and that its marshalled code is of the right version, are other matters (C08, C105)."
 },
 "C110": {
  "status": "proved",
  "note": "For every object graph; C110_selected: any attributes of the fields compared with any markers or constants. A class needed for its own creation may come back as a reference to its name (C01): then the class itself, not a copy, is there (ByName; C110_copied gives a condition under which this does not happen). C110_marker_itself: exactly the markers that the dataclasses module has under their name come back as themselves. Fields of a base class that is by reference, and fields whose marker is another library's, are not meant."
 },
 "C111": {
  "status": "proved",
  "note": "C111_length: at most 2 + (N+1)·Σ(40 + 6·references) opcodes for every graph (finite set of objects closed under references, no creation cycle, as in C02). C111_quadratic: the growth can be quadratic, so the bound has the right order. C111_linear: if no object other than a cell is reachable (by any references) from what has to exist before it is created, 2 + 2·Σ(40 + 6·references): everything shared is written once, whatever cycles run through lists, dicts, sets, functions, classes, cells or instance states. C111_linear_acyclic: the same for graphs without cycles (a tower of k pairs, a tree of 2^k leaves, is written with at most 104(k+1)+2 opcodes)."
 },
 "C112": {
  "status": "partial",
  "note": "C112_copies_of_copies_partial, C112_never_fails_partial: any number of round trips of a graph none of whose functions or classes is needed for its own creation (such a graph can fail or be replaced by a name, C86, C01); functions with a copy of their globals included. C112_nothing_added_partial: nothing is added, if also no list item is needed to create its list (else items are appended twice, C01_items_repeated)."
 },
 "C113": {
  "status": "partial",
  "note": "False of the code (C113_full_false). C113_can_dump_iff says exactly which finite graphs can be pickled at which protocol, and C113_limit_enough that (N+1)^2 nested saves are then enough; C113_any_protocol_partial: the protocol does not matter if no set is needed to make itself; C113_higher_protocols: a higher protocol never does worse. C113_same_copy: whatever the protocol, a pickle (an opcode list, run by an unpickler) loads to an exact copy with the elements of the sets in order; C113_protocols_agree: what is loaded at two protocols is the same; C113_copy_can_dump and C113_generations: the copy, or the copy of copies at any protocols, is again a copy and can be pickled exactly where the original can; C113_round_trip puts these together. Functions and classes are taken as found by name."
 },
 "C114": {
  "status": "partial",
  "note": "False of the code (C114_undill_full_false, C114_objgraph_full_false, C114_gprof_full_false, C114_gprof_leftover). Proved for all runs: what undill prints exactly (C114_undill_exact) and all of it for files of one object (C114_undill_partial); get_objgraph leaves its input alone unless it is a pickle called *.png (C114_objgraph_partial), and changes exactly one file, which is named (C114_objgraph_writes); which files get_gprof changes, exactly (C114_gprof_exact), and that there are no others but the graph if dumps succeeds and there is no <type>.prof (C114_gprof_partial)."
 },
 "C115": {
  "status": "partial",
  "note": "False of the code for texts that the literal cannot hold (C115_full_false, C115_line_break). C115_exact: for texts without backslashes, the texts agree exactly if there are no three quotes in a row and no quote at the end; C115_same_text_partial is the direction users need. C115_harmless_backslashes_partial: the same with backslashes, if each is followed by a character that Python gives no meaning there. For other backslashes only the witness is proved."
 }
}