{
 "claims": [
  {
   "property": "C01",
   "status": "partial",
   "theorems": [
    "Verif.Core.C01_isomorphic_copy_partial",
    "Verif.Core.C01_paths_partial",
    "Verif.Core.C01_paths_exact_partial",
    "Verif.Core.C01_no_other_paths_partial",
    "Verif.Core.Twice.C01_items_repeated",
    "Verif.Core.Own.C01_class_of_itself_by_name",
    "Verif.Wire.C01_bytes_partial"
   ],
   "note": "Exact for graphs without circular functions or classes (C01_paths_exact_partial); a function or class that is needed for its own creation is pickled by its name (C01_class_of_itself_by_name), C01_isomorphic_copy_partial and C01_paths_partial are about all graphs and allow exactly that. Items of an object with list items that can be reached from its own class or constructor arguments may be repeated (C01_items_repeated shows it, C01_no_other_paths_partial excludes it). Well-formedness hypotheses (Spec/WF.lean): see DESIGN.md. C01_bytes_partial: the same through the bytes of a pickle at protocols 2 to 5, any framing."
  },
  {
   "property": "C02",
   "status": "proved",
   "theorems": [
    "Verif.Core.C02_terminates",
    "Verif.Core.C02_creation_cycle_overflows"
   ],
   "note": "Sharp: C02_creation_cycle_overflows shows that a cycle through things that must exist before their container overflows every limit."
  },
  {
   "property": "C03",
   "status": "proved",
   "theorems": [
    "Verif.Core.C03_cells"
   ],
   "note": "Every copied cell; a cell that is only reached through a function or class pickled by its name (C01) is not copied."
  },
  {
   "property": "C04",
   "status": "proved",
   "theorems": [
    "Verif.Core.C04_globals",
    "Verif.Core.OwnDefault.C04_own_default_raises_keyerror"
   ],
   "note": "Every copied function; functions pickled by their name (C01) have no copied globals. C04_own_default_raises_keyerror: with a function among its own defaults dumps raises KeyError."
  },
  {
   "property": "C05",
   "status": "proved",
   "theorems": [
    "Verif.Core.C05_stream_runs",
    "Verif.Wire.C05_bytes_exist"
   ],
   "note": "C05_bytes_exist: every successful run has a byte form at protocols 2 to 5, cut into frames anywhere, if strings and bytes are below 4 GiB, integers below 2 GiB, names have no newline, there are no sets below protocol 4, and at protocol 2 no bytes and only ASCII names."
  },
  {
   "property": "C06",
   "status": "proved",
   "theorems": [
    "Verif.Locate.C06_by_name_same_object",
    "Verif.Locate.C06_never_another_object",
    "Verif.Locate.C06_wrong_name_not_stored",
    "Verif.Locate.C06_function_by_value",
    "Verif.Locate.C06_class_by_value",
    "Verif.Locate.C06_class_by_name_only",
    "Verif.Locate.C06_module_searched",
    "Verif.Locate.C06_located_stored_by_name",
    "Verif.Locate.C06_sane_example",
    "Verif.Locate.C06_reserved_names_hijacked"
   ],
   "note": "Hypothesis Sane: nobody has taken the names find_class treats specially (met by C06_sane_example, and shown necessary by C06_reserved_names_hijacked), EnumMeta/ExceptHookArgs still where dill found them."
  },
  {
   "property": "C07",
   "status": "proved",
   "theorems": [
    "Verif.Code.C07_code_roundtrip_same_version",
    "Verif.Code.C07_codeVersion_detects"
   ],
   "note": "all six layouts, all field values"
  },
  {
   "property": "C08",
   "status": "partial",
   "theorems": [
    "Verif.Code.C08_code_cross_version_partial",
    "Verif.Code.C08_linetable_actual",
    "Verif.Code.C08_full_false",
    "Verif.Code.C08_text_attributes",
    "Verif.Code.C08_rejects_other_lengths"
   ],
   "note": "False of the code for the line table between 3.8/3.9 and 3.10+: C08_full_false; every other shared field is preserved (C08_code_cross_version_partial), C08_linetable_actual says what happens to the line table."
  },
  {
   "property": "C09",
   "status": "partial",
   "theorems": [
    "Verif.File.C09_handle_fmode",
    "Verif.File.C09_read_modes",
    "Verif.File.C09_each_mode",
    "Verif.File.C09_missing",
    "Verif.File.C09_standard_streams",
    "Verif.File.C09_closed_stream_closes_ours",
    "Verif.File.C09_file_named_like_a_stream"
   ],
   "note": "Proved for every ordinary name (C09_handle_fmode, C09_each_mode, C09_missing) and open standard streams; false for a closed standard stream (loading closes ours: C09_closed_stream_closes_ours) and for a file whose name is <stdin>, <stdout> or <stderr> (C09_file_named_like_a_stream)."
  },
  {
   "property": "C10",
   "status": "proved",
   "theorems": [
    "Verif.File.C10_contents_fmode",
    "Verif.File.C10_contents_fmode_closed",
    "Verif.File.C10_strictio",
    "Verif.File.C10_strictio_closed"
   ],
   "note": ""
  },
  {
   "property": "C11",
   "status": "partial",
   "theorems": [
    "Verif.File.C11_standard_stream_unpicklable",
    "Verif.File.C11_file_fmode_partial",
    "Verif.File.C11_file_fmode_closed_partial",
    "Verif.File.C11_binary_write_fails",
    "Verif.File.C11_exclusive_fails",
    "Verif.File.C11_full_false",
    "Verif.File.C11_carriage_returns_lost",
    "Verif.File.C11_line_ends"
   ],
   "note": "False of the code: 'wb' and 'x' modes fail, carriage returns are lost (C11_full_false, C11_binary_write_fails, C11_exclusive_fails, C11_carriage_returns_lost); proved for the remaining modes and contents."
  },
  {
   "property": "C12",
   "status": "proved",
   "theorems": [
    "Verif.SafeOpen.C12_dump_never_writes_through_symlink",
    "Verif.SafeOpen.C12_dump_success_is_regular",
    "Verif.SafeOpen.C12_dump_undisturbed",
    "Verif.SafeOpen.C12_without_nofollow_race"
   ],
   "note": ""
  },
  {
   "property": "C13",
   "status": "proved",
   "theorems": [
    "Verif.SafeOpen.C13_load_never_reads_through_symlink",
    "Verif.SafeOpen.C13_load_undisturbed",
    "Verif.SafeOpen.C13_without_nofollow_race"
   ],
   "note": ""
  },
  {
   "property": "C14",
   "status": "proved",
   "theorems": [
    "Verif.Stash.C14_refimported_roundtrip",
    "Verif.Stash.C14_imported_comes_back_identical",
    "Verif.Stash.C14_own_objects_saved_by_value"
   ],
   "note": ""
  },
  {
   "property": "C15",
   "status": "proved",
   "theorems": [
    "Verif.Session.C15_refuses_mismatch",
    "Verif.Session.C15_refuses_mismatch_any_arg",
    "Verif.Session.C15_accepts_match"
   ],
   "note": ""
  },
  {
   "property": "C16",
   "status": "proved",
   "theorems": [
    "Verif.Session.C16_no_trace"
   ],
   "note": ""
  },
  {
   "property": "C17",
   "status": "partial",
   "theorems": [
    "Verif.Session.C17_asdict_partial",
    "Verif.Session.C17_runtime_always_fails",
    "Verif.Session.C17_full_false",
    "Verif.Session.C17_dotted_alters_original"
   ],
   "note": "False of the code for runtime and dotted module names (C17_full_false, C17_runtime_always_fails, C17_dotted_alters_original); proved for plain names."
  },
  {
   "property": "C18",
   "status": "proved",
   "theorems": [
    "Verif.Identify.C18_identify_exact",
    "Verif.Identify.C18_peek256",
    "Verif.Identify.C18_unpeekable",
    "Verif.Identify.C18_long_name_unloadable",
    "Verif.Identify.C18_self_misidentified",
    "Verif.Identify.C18_not_a_pickle"
   ],
   "note": "Exact for every protocol, name and chunk length. A name too long for the peeked 256 bytes is an error (C18_long_name_unloadable); the module dill._dill itself is misidentified at protocol 4+ (C18_self_misidentified: its name is fetched from the memo, outside the property's wording 'the name fits in the peeked chunk')."
  },
  {
   "property": "C19",
   "status": "proved",
   "theorems": [
    "Verif.Peek.C19_peek_keeps",
    "Verif.Peek.C19_peek_length",
    "Verif.Peek.C19_unseekable_reported",
    "Verif.Peek.C19_moved_is_reported",
    "Verif.Peek.C19_buffered_peek_keeps",
    "Verif.Peek.C19_buffered_read",
    "Verif.Peek.C19_wrap",
    "Verif.Peek.C19_wrap_unseekable",
    "Verif.Peek.C19_other_errors_propagate",
    "Verif.Peek.C19_peek_again"
   ],
   "note": ""
  },
  {
   "property": "C20",
   "status": "partial",
   "theorems": [
    "Verif.Dispatch.C20_extend_publishes",
    "Verif.Dispatch.C20_revert_exact",
    "Verif.Dispatch.C20_revert_restores_partial",
    "Verif.Dispatch.C20_user_function_leaks",
    "Verif.Dispatch.C20_extend_idempotent",
    "Verif.Dispatch.C20_revert_idempotent",
    "Verif.Dispatch.C20_extend_after_revert"
   ],
   "note": "Restoring pickle's table is false when the user registered a save function that is not dill's own (C20_user_function_leaks); proved for dill's own functions (C20_revert_restores_partial), and C20_revert_exact says exactly what else can remain."
  },
  {
   "property": "C21",
   "status": "proved",
   "theorems": [
    "Verif.Dispatch.C21_last_registration_wins",
    "Verif.Dispatch.C21_lookup",
    "Verif.Dispatch.C21_register_local"
   ],
   "note": ""
  },
  {
   "property": "C22",
   "status": "proved",
   "theorems": [
    "Verif.Chain.C22_find_chain",
    "Verif.Chain.C22_children",
    "Verif.Chain.C22_parents",
    "Verif.Chain.C22_parent",
    "Verif.Chain.C22_parents_does_not_honour_ignore"
   ],
   "note": "find_chain/children/parents/parent proved for every graph; parents does not honour its ignore argument (C22_parents_does_not_honour_ignore)."
  },
  {
   "property": "C23",
   "status": "proved",
   "theorems": [
    "Verif.Detect.C23_nestedcode"
   ],
   "note": ""
  },
  {
   "property": "C24",
   "status": "partial",
   "theorems": [
    "Verif.Detect.C24_nestedglobals_partial",
    "Verif.Detect.C24_no_name_missed",
    "Verif.Detect.C24_spurious_name",
    "Verif.Detect.C24_recurse_false_wrong",
    "Verif.Detect.C24_full_false"
   ],
   "note": "False of the code: local names containing _GLOBAL are reported (C24_spurious_name) and recurse=False still reports nested names (C24_recurse_false_wrong). Proved exact for code where only global instructions display _GLOBAL; no used name is ever missed (C24_no_name_missed)."
  },
  {
   "property": "C25",
   "status": "proved",
   "theorems": [
    "Verif.Detect.C25_globalvars",
    "Verif.Detect.C25_single_module_exact"
   ],
   "note": "general statement, and exact transitive characterisation when all functions share one namespace"
  },
  {
   "property": "C26",
   "status": "partial",
   "theorems": [
    "Verif.Detect.C26_cycle_never_returns",
    "Verif.Detect.C26_terminates_partial",
    "Verif.Detect.C26_mutual_recursion_never_returns",
    "Verif.Detect.C26_recursive_closure_never_returns",
    "Verif.Detect.C26_full_false",
    "Verif.Detect.C26_no_recurse_iff_partial",
    "Verif.Detect.C26_no_closures_iff_partial",
    "Verif.Detect.C26_one_module_iff_partial"
   ],
   "note": "False of the code for mutually recursive functions and recursive closures (C26_cycle_never_returns, C26_full_false). Exactly when it returns is proved for recurse=False (C26_no_recurse_iff_partial), for functions without closures in any modules (C26_no_closures_iff_partial) and for all functions of one module (C26_one_module_iff_partial)."
  },
  {
   "property": "C27",
   "status": "proved",
   "theorems": [
    "Verif.Detect.C27_freevars"
   ],
   "note": ""
  },
  {
   "property": "C28",
   "status": "partial",
   "theorems": [
    "Verif.Pickles.C28_safe_never_raises",
    "Verif.Pickles.C28_unsafe_raises_iff",
    "Verif.Pickles.C28_filters_partial",
    "Verif.Pickles.C28_filters_untouched",
    "Verif.Pickles.C28_filters_lost",
    "Verif.Pickles.C28_filters_leak",
    "Verif.Pickles.C28_interrupt_propagates",
    "Verif.Pickles.C28_full_false"
   ],
   "note": "never raises: proved. Filters unchanged: false when the catch-all filter already exists or the comparison raises (C28_filters_lost, C28_filters_leak); proved otherwise."
  },
  {
   "property": "C29",
   "status": "proved",
   "theorems": [
    "Verif.Pickles.C29_exact_stricter",
    "Verif.Pickles.C29_true_iff",
    "Verif.Pickles.C29_exact_sound"
   ],
   "note": ""
  },
  {
   "property": "C30",
   "status": "partial",
   "theorems": [
    "Verif.Pickles.C30_bad_reports",
    "Verif.Pickles.C30_bad_depth0",
    "Verif.Pickles.C30_baditems_partial",
    "Verif.Pickles.C30_baditems_misses",
    "Verif.Pickles.C30_errors_depth0",
    "Verif.Pickles.C30_errors_agree_partial",
    "Verif.Pickles.C30_errors_disagrees",
    "Verif.Pickles.C30_errors_attrs",
    "Verif.Pickles.C30_errors_returns",
    "Verif.Pickles.C30_errors_interrupted"
   ],
   "note": "badobjects/badtypes proved. baditems misses failing items equal to None (C30_baditems_misses). errors disagrees with pickles when the class is re-created (C30_errors_disagrees)."
  },
  {
   "property": "C31",
   "status": "proved",
   "theorems": [
    "Verif.Logger.C31_trace_well_nested",
    "Verif.Logger.C31_untellable_stream",
    "Verif.Logger.C31_off_is_silent",
    "Verif.Logger.C31_depth_never_below_one"
   ],
   "note": ""
  },
  {
   "property": "C32",
   "status": "partial",
   "theorems": [
    "Verif.Logger.C32_bytes_partial",
    "Verif.Logger.C32_actual",
    "Verif.Logger.C32_full_false"
   ],
   "note": "False of the code: from 1024 bytes on the unit is one too large and from 2^50 on formatting raises (C32_actual, C32_full_false); correct below 1024 bytes."
  },
  {
   "property": "C33",
   "status": "partial",
   "theorems": [
    "Verif.Logger.C33_restores_partial",
    "Verif.Logger.C33_exceptions_propagate",
    "Verif.Logger.C33_other_handlers",
    "Verif.Logger.C33_switch",
    "Verif.Logger.C33_traces_inside",
    "Verif.Logger.C33_nested_redirect",
    "Verif.Logger.C33_full_false",
    "Verif.Logger.C33_notset_not_restored"
   ],
   "note": "False of the code inside an already redirected block (C33_nested_redirect, C33_full_false) and for a NOTSET level (C33_notset_not_restored); proved whenever stderr's handler is attached on entry, any body."
  },
  {
   "property": "C34",
   "status": "proved",
   "theorems": [
    "Verif.Temp.C34_stream_restored",
    "Verif.Temp.C34_all_streams_restored",
    "Verif.Temp.C34_output_goes_to_innermost"
   ],
   "note": ""
  },
  {
   "property": "C35",
   "status": "partial",
   "theorems": [
    "Verif.Temp.C35_tag_read_back",
    "Verif.Temp.C35_name_recovered_partial",
    "Verif.Temp.C35_latin1_not_utf8",
    "Verif.Temp.C35_wrong_name",
    "Verif.Temp.C35_not_encodable",
    "Verif.Temp.C35_full_false",
    "Verif.Temp.C35_dump_iff",
    "Verif.Temp.C35_exactly_ascii",
    "Verif.Temp.C35_alias_wins"
   ],
   "note": "The tag logic is right for every text (C35_tag_read_back); false end to end for non-ASCII texts because dump encodes Latin-1 and load decodes UTF-8 (C35_latin1_not_utf8, C35_wrong_name, C35_not_encodable); proved end to end for ASCII."
  },
  {
   "property": "C36",
   "status": "partial",
   "theorems": [
    "Verif.Indent.C36_outdent_partial",
    "Verif.Indent.C36_nonblank_kept_partial",
    "Verif.Indent.C36_tab_deletes_code",
    "Verif.Indent.C36_tabs_delete_code",
    "Verif.Indent.C36_indent_partial",
    "Verif.Indent.C36_roundtrip_partial",
    "Verif.Indent.C36_not_inverse",
    "Verif.Indent.C36_nothing_indented"
   ],
   "note": "Full statement false: outdent counts characters of leading whitespace of the first line only and removes that many from lines with tabs (C36_tab_deletes_code), indent skips/changes blank lines so outdent is not an exact inverse (C36_not_inverse), and indent may indent nothing (C36_nothing_indented). Proved under the hypotheses named in the _partial theorems. ASCII whitespace."
  },
  {
   "property": "C37",
   "status": "proved",
   "theorems": [
    "Verif.Diff.C37_fresh",
    "Verif.Diff.C37_history",
    "Verif.Diff.C37_unknown",
    "Verif.Diff.C37_terminates"
   ],
   "note": "Objects keep their kind (has attributes / sequence / mapping); sets modelled by their iteration order; numpy not modelled; release_gone is C97. C37_history covers every history of memorise calls, forced or not."
  },
  {
   "property": "C38",
   "status": "proved",
   "theorems": [
    "Verif.Diff.C38_records_reachable",
    "Verif.Diff.C38_second_noop",
    "Verif.Diff.C38_force_updates_one",
    "Verif.Diff.C38_terminates"
   ],
   "note": "Graphs finite for termination; Python's recursion limit not modelled."
  },
  {
   "property": "C39",
   "status": "partial",
   "theorems": [
    "Verif.NamedTuple.C39_namedtuple_methods_lost",
    "Verif.TypeDict.C39_lookup_partial",
    "Verif.TypeDict.C39_single_inheritance_partial",
    "Verif.TypeDict.C39_hash_lost",
    "Verif.TypeDict.C39_generic_parent_lost",
    "Verif.TypeDict.C39_chosen_base_lost",
    "Verif.TypeDict.C39_pinned_method_lost",
    "Verif.TypeDict.C39_private_slot_fails",
    "Verif.TypeDict.C39_replaced_slot_lost",
    "Verif.TypeDict.C39_own_dict_lost"
   ],
   "note": "Proved for every reachable class hierarchy whose saved classes are ordinary (Ordinary, Saved, Stable in Props/TypeDict.lean), and without Stable for single inheritance. False in general; each exclusion is a real failure with its own theorem: C39_hash_lost (__hash__ = Base.__hash__ beside __eq__ makes the copy unhashable), C39_generic_parent_lost (a subclass of a generic class loses its parent), C39_chosen_base_lost, C39_pinned_method_lost, C39_private_slot_fails, C39_replaced_slot_lost, C39_own_dict_lost, C39_namedtuple_methods_lost. Metaclasses, ABC registries, __init_subclass__ hooks not modelled."
  },
  {
   "property": "C40",
   "status": "partial",
   "theorems": [
    "Verif.NamedTuple.C40_same_iff",
    "Verif.NamedTuple.C40_fields_defaults_partial",
    "Verif.NamedTuple.C40_importable_same",
    "Verif.NamedTuple.C40_full_false",
    "Verif.NamedTuple.C40_anything_by_that_name"
   ],
   "note": "Full whenever the class's name does not import as a class or module; when the name leads to another class or a submodule that object is returned instead: C40_full_false. C40_same_iff says exactly when the copy is right."
  },
  {
   "property": "C41",
   "status": "partial",
   "theorems": [
    "Verif.FuncAttrs.C41_same_iff",
    "Verif.FuncAttrs.C41_attributes",
    "Verif.FuncAttrs.C41_qualname_doc_partial",
    "Verif.FuncAttrs.C41_qualname_lost",
    "Verif.FuncAttrs.C41_doc_reappears",
    "Verif.FuncAttrs.C41_dict_class"
   ],
   "note": "Attributes, defaults, annotations, etc. in full. __qualname__ when it differs from the code object's (functools.wraps) is lost: C41_qualname_lost; a removed docstring reappears: C41_doc_reappears. C41_same_iff is exact for both."
  },
  {
   "property": "C42",
   "status": "proved",
   "theorems": [
    "Verif.Settings.C42_dump_options",
    "Verif.Settings.C42_load_options",
    "Verif.Settings.C42_copy_options",
    "Verif.Settings.C42_dump_total",
    "Verif.Settings.C42_calls_keep_settings",
    "Verif.Settings.C42_settings_at_call",
    "Verif.Settings.C42_load_accepts",
    "Verif.Settings.C42_dump_unknown",
    "Verif.Settings.C42_dump_accepts",
    "Verif.Settings.C42_each_call"
   ],
   "note": ""
  },
  {
   "property": "C43",
   "status": "proved",
   "theorems": [
    "Verif.Settings.C43_repointed",
    "Verif.Settings.C43_left_alone",
    "Verif.Settings.C43_only_the_result"
   ],
   "note": ""
  },
  {
   "property": "C44",
   "status": "partial",
   "theorems": [
    "Verif.Locks.C44_repr_read",
    "Verif.Locks.C44_held_observed",
    "Verif.Locks.C44_repr_word",
    "Verif.Locks.C44_lock",
    "Verif.Locks.C44_held_partial",
    "Verif.Locks.C44_other_thread",
    "Verif.Locks.C44_free_rlock_stuck"
   ],
   "note": "Lock: full. RLock held by the copying thread: the copy is in the same state, after any history; held by another thread: refused with UnpicklingError. False for a free RLock: C44_free_rlock_stuck proves that its copy looks free but can never be acquired."
  },
  {
   "property": "C45",
   "status": "partial",
   "theorems": [
    "Verif.Weak.C45_weakrefs_partial",
    "Verif.Weak.C45_proxy_referent_partial",
    "Verif.Weak.C45_proxy_misdirected"
   ],
   "note": "Weak references and proxies in the loaded graph: on top of C01, live references for graphs without circular functions or classes. Finding the referent of a proxy: proved when str(referent) does not read like an address; C45_proxy_misdirected shows the property false otherwise."
  },
  {
   "property": "C46",
   "status": "partial",
   "theorems": [
    "Verif.DictView.C46_elements",
    "Verif.DictView.C46_view_of_copy_partial",
    "Verif.DictView.C46_odict_view_detached",
    "Verif.DictView.C46_view_type",
    "Verif.DictView.C46_proxy"
   ],
   "note": "Contents and order: full, both strategies. A view of an exact dict stays a view of the copied dict; for OrderedDict and other subclasses it does not: C46_odict_view_detached."
  },
  {
   "property": "C47",
   "status": "proved",
   "theorems": [
    "Verif.GetBlocks.C47_getblocks",
    "Verif.GetBlocks.C47_getsourcelines",
    "Verif.GetBlocks.C47_covers_partial",
    "Verif.GetBlocks.C47_decorators_partial",
    "Verif.GetBlocks.C47_wrong_twin"
   ],
   "note": "Termination and containment for every block reader returning non-empty blocks; getblock/regex/indentsize are parameters. C47_wrong_twin records that the returned line number may be that of an identical earlier decorated twin."
  },
  {
   "property": "C48",
   "status": "proved",
   "theorems": [
    "Verif.GetImport.C48_form",
    "Verif.GetImport.C48_unverified_exact",
    "Verif.GetImport.C48_terminates"
   ],
   "note": "Statement denoted by the string given by an independent parser. _intypes and exec are parameters."
  },
  {
   "property": "C49",
   "status": "partial",
   "theorems": [
    "Verif.Shims.C49_load_sound",
    "Verif.Shims.C49_load_complete_partial",
    "Verif.Shims.C49_eager_default_fails",
    "Verif.Shims.C49_call",
    "Verif.Shims.C49_register",
    "Verif.Shims.C49_move_to"
   ],
   "note": "Soundness, calling, register_shim, move_to: full. A shim whose default is itself a shim that cannot be resolved fails to load although the attribute exists: C49_eager_default_fails; C49_load_complete_partial assumes resolvable defaults."
  },
  {
   "property": "C50",
   "status": "partial",
   "theorems": [
    "Verif.GetImport.C50_verified_partial",
    "Verif.GetImport.C50_plain_import",
    "Verif.GetImport.C50_failing_import_returned",
    "Verif.GetImport.C50_failing_package_returned"
   ],
   "note": "False as stated: an undotted head whose import fails is returned anyway (C50_failing_import_returned). C50_verified_partial says what verification does guarantee."
  },
  {
   "property": "C51",
   "status": "partial",
   "theorems": [
    "Verif.Diff.C51_listed_partial",
    "Verif.Diff.C51_excluded",
    "Verif.Diff.C51_missed_attribute",
    "Verif.Diff.C51_reports_iff",
    "Verif.Diff.C51_exact_acyclic_partial"
   ],
   "note": "Whether anything is reported is exact on every graph (C51_reports_iff); which attributes, and the items, exact when no object leads back to itself (C51_exact_acyclic_partial); in general everything changed directly is listed and everything listed is justified (C51_listed_partial), but an attribute leading to a changed object through a cycle may be missed (C51_missed_attribute)."
  },
  {
   "property": "C52",
   "status": "partial",
   "theorems": [
    "Verif.Modules.C52_same_module_partial",
    "Verif.Modules.C52_dump_succeeds",
    "Verif.Modules.C52_runtime_module_replaced",
    "Verif.Modules.C52_shadowed_submodule_fails",
    "Verif.Modules.C52_shadowed_submodule_replaced"
   ],
   "note": "False for modules not in sys.modules (made at run time: another module of that name is returned, or loads fails) and for submodules hidden by a class of the same name in the package; proved when the module is imported under its name and bound in its package."
  },
  {
   "property": "C53",
   "status": "partial",
   "theorems": [
    "Verif.Modules.C53_contents_overlay_partial",
    "Verif.Modules.C53_by_name_changes_nothing",
    "Verif.Modules.C53_setstate_called",
    "Verif.Modules.C53_setstate_hijacks",
    "Verif.Modules.C53_missing_module_raises",
    "Verif.Modules.C53_recorded_name",
    "Verif.Modules.C53_main_saved_with_contents"
   ],
   "note": "Exact whenever the module being restored has no global named __setstate__ (C53_contents_overlay_partial); otherwise that global is called instead (C53_setstate_called) and nothing need be restored (C53_setstate_hijacks)."
  },
  {
   "property": "C54",
   "status": "partial",
   "theorems": [
    "Verif.Modules.C54_installed_by_name",
    "Verif.Modules.C54_no_file",
    "Verif.Modules.C54_outside_by_name",
    "Verif.Modules.C54_contents_iff_outside_partial"
   ],
   "note": "False: directory names are compared as string prefixes, so /opt/pyproj counts as part of /opt/py. Proved: installed modules are always saved by name; the converse where prefixes end at path separators."
  },
  {
   "property": "C55",
   "status": "partial",
   "theorems": [
    "Verif.Modules.C55_main_namespace",
    "Verif.Modules.C55_reference_sound_partial",
    "Verif.Modules.C55_ordinary_dict_by_value",
    "Verif.Modules.C55_copy_becomes_namespace"
   ],
   "note": "False: a dict merely equal to the main namespace (a copy) is replaced by the live namespace. Proved for all other dicts."
  },
  {
   "property": "C56",
   "status": "partial",
   "theorems": [
    "Verif.Modules.C56_no_name_no_effect_partial",
    "Verif.Modules.C56_unimportable_name_by_value_partial",
    "Verif.Modules.C56_empty_name_raises",
    "Verif.Modules.C56_dump_runs_import",
    "Verif.Modules.C56_imported_name_no_effect_partial"
   ],
   "note": "False: a '__name__' string is imported at dump time; {'__name__': ''} cannot be pickled. Proved for dicts without such a key or naming an imported module."
  },
  {
   "property": "C57",
   "status": "partial",
   "theorems": [
    "Verif.Reducers.C57_roundtrip_iff",
    "Verif.Reducers.C57_singleton_roundtrip_partial",
    "Verif.Reducers.C57_big_range_raises"
   ],
   "note": "False for ranges with a bound beyond sys.get_int_max_str_digits() digits: dumps raises (C57_big_range_raises). Proved for all others. C57_roundtrip_iff is exact."
  },
  {
   "property": "C58",
   "status": "partial",
   "theorems": [
    "Verif.Reducers.C58_lru_parameters",
    "Verif.Reducers.C58_lru_old_partial",
    "Verif.Reducers.C58_same_iff",
    "Verif.Reducers.C58_typed_lost_before_39"
   ],
   "note": "Proved in full from Python 3.9 on; before, typed is lost (dill's OLD39 branch)."
  },
  {
   "property": "C59",
   "status": "partial",
   "theorems": [
    "Verif.Reducers.C59_existing_iff",
    "Verif.Reducers.C59_existing_is_valid",
    "Verif.Reducers.C59_new_has_fields",
    "Verif.Reducers.C59_existing_found_partial",
    "Verif.Reducers.C59_submodule_capsule_duplicated",
    "Verif.Reducers.C59_submodule_capsule_fails"
   ],
   "note": "False for capsules in submodules (__import__ returns the top-level package): duplicated, or loading fails. Proved for module.attribute names; soundness in general. C59_existing_iff says exactly when an existing capsule is returned, for every dotted name."
  },
  {
   "property": "C60",
   "status": "partial",
   "theorems": [
    "Verif.Reducers.C60_same_iff",
    "Verif.Reducers.C60_descriptor_partial",
    "Verif.Reducers.C60_descriptor_of_namesake"
   ],
   "note": "False when the class has the name of a class visible in dill._dill that has such an attribute. Proved otherwise. C60_same_iff is exact."
  },
  {
   "property": "C61",
   "status": "partial",
   "theorems": [
    "Verif.Reducers.C61_property_iff",
    "Verif.Reducers.C61_wrapper_iff",
    "Verif.Reducers.C61_property_partial",
    "Verif.Reducers.C61_removed_doc_returns",
    "Verif.Reducers.C61_getter_doc_frozen",
    "Verif.Reducers.C61_own_doc_same_partial",
    "Verif.Reducers.C61_wrapper_partial",
    "Verif.Reducers.C61_wrapper_attribute_lost"
   ],
   "note": "Witnesses: a removed doc string returns, the copy's doc is frozen, attributes of static/class methods are lost. Proved: functions, kind, doc otherwise. C61_property_iff and C61_wrapper_iff are exact."
  },
  {
   "property": "C62",
   "status": "partial",
   "theorems": [
    "Verif.Reducers.C62_meaning_iff",
    "Verif.Reducers.C62_tuple_alias_partial",
    "Verif.Reducers.C62_empty_tuple_downgrade"
   ],
   "note": "Tuple[()] from 3.11+ loaded before 3.11 is not Tuple[()]. Proved for all other version pairs and argument lists. C62_meaning_iff is exact."
  },
  {
   "property": "C63",
   "status": "partial",
   "theorems": [
    "Verif.Source.C63_function_partial",
    "Verif.Source.C63_lambda_partial",
    "Verif.Source.C63_class",
    "Verif.Source.C63_instance_partial",
    "Verif.Source.C63_nothing_lost",
    "Verif.Source.C63_renamed_function",
    "Verif.Source.C63_async_lambda",
    "Verif.Source.C63_decorator_corrupted",
    "Verif.Source.C63_anonymous_lambda"
   ],
   "note": "False for renamed functions, coroutine functions with a lambda in the header, multi-line decorators with a lambda, lambdas inside calls (witnesses). Proved: functions with single-line decorators, assigned lambdas, classes, instances; for every object nothing of the source is lost."
  },
  {
   "property": "C64",
   "status": "partial",
   "theorems": [
    "Verif.Source.C64_import_expression",
    "Verif.Source.C64_private_class"
   ],
   "note": "Proved as an equivalence: the right expression is evaluated exactly when the class name has no underscore. False with an underscore (witness)."
  },
  {
   "property": "C65",
   "status": "partial",
   "theorems": [
    "Verif.Source.C65_same_object_partial",
    "Verif.Source.C65_answers",
    "Verif.Source.C65_import_first",
    "Verif.Source.C65_source_first",
    "Verif.Source.C65_wrong_object"
   ],
   "note": "False when the source of a global variable cannot be had: the fallback is about the dict of globals (witness). Proved otherwise, with the choice of the first way and success."
  },
  {
   "property": "C66",
   "status": "partial",
   "theorems": [
    "Verif.Source.C66_same_module",
    "Verif.Source.C66_absent",
    "Verif.Source.C66_length_not_updated",
    "Verif.Source.C66_data_changed"
   ],
   "note": "Proved when the text runs in the same module or the name does not occur. False for names of another length (every printable short name) and for data that contains the name."
  },
  {
   "property": "C67",
   "status": "proved",
   "theorems": [
    "Verif.Source.C67_enclosed",
    "Verif.Source.C67_plain",
    "Verif.Source.C67_new",
    "Verif.Source.C67_same_pickle",
    "Verif.Source.C67_same_pickle_plain"
   ],
   "note": "Exact text for every pickle text and alias without newlines; C67_same_pickle: the bytes literal in the text reads back as exactly the pickle."
  },
  {
   "property": "C68",
   "status": "proved",
   "theorems": [
    "Verif.Wire.C68_consecutive"
   ],
   "note": "Protocols 3, 4 and 5, any framing, any choice of memoised names; graphs as in C01."
  },
  {
   "property": "C69",
   "status": "proved",
   "theorems": [
    "Verif.Wire.C69_truncated",
    "Verif.Wire.C69_interrupted",
    "Verif.Wire.C69_truncated_last"
   ],
   "note": "Protocols 3, 4 and 5, any framing, any choice of memoised names; graphs as in C01."
  },
  {
   "property": "C70",
   "status": "partial",
   "theorems": [
    "Verif.DumpModule.C70_early_errors_partial",
    "Verif.DumpModule.C70_outcome_partial",
    "Verif.DumpModule.C70_failed_dump_destroys"
   ],
   "note": "False: the file is truncated before pickling starts (C70_failed_dump_destroys). Proved: errors before opening leave it; afterwards it holds exactly what the pickler wrote, and such a remainder never loads (C69_interrupted, protocols 2 to 5)."
  },
  {
   "property": "C71",
   "status": "proved",
   "theorems": [
    "Verif.DumpModule.C71_closes_what_it_opens",
    "Verif.DumpModule.C71_only_the_named_file"
   ],
   "note": "Nobody else acts on the file system (C12 covers that); close does not fail."
  },
  {
   "property": "C72",
   "status": "partial",
   "theorems": [
    "Verif.DumpModule.C72_old_names",
    "Verif.DumpModule.C72_both_names_refused_partial",
    "Verif.DumpModule.C72_refused_iff",
    "Verif.DumpModule.C72_job",
    "Verif.DumpModule.C72_settings_do_not_apply",
    "Verif.DumpModule.C72_recurse_keyword_ignored",
    "Verif.DumpModule.C72_dump_session",
    "Verif.DumpModule.C72_both_names_accepted"
   ],
   "note": "Both names are accepted when the new one is falsy (C72_both_names_accepted); everything else proved."
  },
  {
   "property": "C73",
   "status": "partial",
   "theorems": [
    "Verif.Check.C73_check_partial",
    "Verif.Check.C73_keywords",
    "Verif.Check.C73_dump_failed",
    "Verif.Check.C73_path_with_space",
    "Verif.Check.C73_load_options_dropped"
   ],
   "note": "False for paths with white space (C73_path_with_space); proved for all other paths and all bytes."
  },
  {
   "property": "C74",
   "status": "partial",
   "theorems": [
    "Verif.TempFile.C74_temp_roundtrip",
    "Verif.TempFile.C74_temp_frame",
    "Verif.TempFile.C74_temp_closed",
    "Verif.TempFile.C74_temp_failed_partial",
    "Verif.TempFile.C74_failed_dump_leaves_file",
    "Verif.TempFile.C74_memory_roundtrip",
    "Verif.TempFile.C74_memory_total"
   ],
   "note": "The clause on failed dumps is false for delete=False (C74_failed_dump_leaves_file); the rest proved."
  },
  {
   "property": "C75",
   "status": "partial",
   "theorems": [
    "Verif.FuncGlobals.C75_live_namespace_partial",
    "Verif.FuncGlobals.C75_live_main_partial",
    "Verif.FuncGlobals.C75_session_functions",
    "Verif.FuncGlobals.C75_reference_only_if",
    "Verif.FuncGlobals.C75_copied_entries",
    "Verif.FuncGlobals.C75_sharing_partial",
    "Verif.FuncGlobals.C75_wraps_copies_namespace",
    "Verif.FuncGlobals.C75_recurse_copies",
    "Verif.Core.C75_copies_apart"
   ],
   "note": "False with recurse=True and for functions whose __module__ is another module (C75_wraps_copies_namespace); proved otherwise, when the namespace is not equal to the main namespace by coincidence (C55)."
  },
  {
   "property": "C76",
   "status": "partial",
   "theorems": [
    "Verif.Core.C76_clear_memo_like_new_partial",
    "Verif.Core.C76_dump_sequence",
    "Verif.Core.C76_identity_across_dumps",
    "Verif.Core.Ex76.C76_failed_dump_spoils_pickler",
    "Verif.Core.Ex76.C76_two_picklers_one_unpickler"
   ],
   "note": "clear_memo after a failed dump does not restore the pickler (C76_failed_dump_spoils_pickler); proved for all histories without failed dumps."
  },
  {
   "property": "C77",
   "status": "partial",
   "theorems": [
    "Verif.Abc.C77_registered_accepted",
    "Verif.Abc.C77_subclasses_kept_partial",
    "Verif.Abc.C77_named_abc_forgets",
    "Verif.Abc.C77_subclass_not_pickled",
    "Verif.Abc.C77_order_loses_registration",
    "Verif.Abc.C77_order_raises"
   ],
   "note": "false in general (four witnesses); proved when the pickle is closed under subclasses of its ABCs, registrations are with pickled ABCs or already known to the loader, and no plain base of an ABC is registered."
  },
  {
   "property": "C78",
   "status": "partial",
   "theorems": [
    "Verif.LoadTypes.C78_objects",
    "Verif.LoadTypes.C78_last_call_decides_partial",
    "Verif.LoadTypes.C78_other_names_stay",
    "Verif.LoadTypes.C78_streamreader_stays",
    "Verif.LoadTypes.C78_registered_loaded"
   ],
   "note": "false for names without 'Type' and for registered objects with pickleable=False (two witnesses); proved for all other names and all histories."
  },
  {
   "property": "C79",
   "status": "proved",
   "theorems": [
    "Verif.TypeNames.C79_same_type",
    "Verif.TypeNames.C79_same_type_names",
    "Verif.TypeNames.C79_builtins_by_name",
    "Verif.TypeNames.C79_hand_built_by_name",
    "Verif.TypeNames.C79_user_class_not_by_name"
   ],
   "note": ""
  },
  {
   "property": "C80",
   "status": "partial",
   "theorems": [
    "Verif.FindSource.C80_file_search",
    "Verif.FindSource.C80_function_in_file_partial",
    "Verif.FindSource.C80_file_too_short",
    "Verif.FindSource.C80_function_typed_in_partial",
    "Verif.FindSource.C80_unknown_function_gives_first_line",
    "Verif.FindSource.C80_lambda_typed_in_partial",
    "Verif.FindSource.C80_code_typed_in",
    "Verif.FindSource.C80_class_at_top_level",
    "Verif.FindSource.C80_class_indented",
    "Verif.FindSource.C80_class_not_found",
    "Verif.FindSource.C80_class_defined_once",
    "Verif.FindSource.C80_async_function_wrong_source",
    "Verif.FindSource.C80_star_lambda_wrong_source",
    "Verif.FindSource.C80_typed_in_wrong_function",
    "Verif.FindSource.C80_indented_class_wrong",
    "Verif.FindSource.C80_docstring_taken_for_class"
   ],
   "note": "false for async functions, lambda*args, typed-in functions with overlapping names, duplicate indented classes (witnesses); proved for def, decorated def and lambda in files, for the last def line with the name in the history, for classes at top level and for classes defined once."
  },
  {
   "property": "C81",
   "status": "partial",
   "theorems": [
    "Verif.EndToEnd.C81_session_bytes_partial",
    "Verif.EndToEnd.C81_session_saved",
    "Verif.SessionGraph.C81_session_graph_partial"
   ],
   "note": "WF graphs, as C01: paths through a function or class that is needed for its own creation may lead to the live object of that name (NamedOn); list items of self-made objects may be repeated, which paths of the saved session do not see."
  },
  {
   "property": "C82",
   "status": "partial",
   "theorems": [
    "Verif.Closured.C82_layout_partial",
    "Verif.Closured.C82_answers",
    "Verif.Closured.C82_target_last_partial",
    "Verif.Closured.C82_value_partial",
    "Verif.Closured.C82_recursive_inner",
    "Verif.Closured.C82_name_reused",
    "Verif.Closured.C82_wrong_function"
   ],
   "note": "Full statement false (three witnesses: C82_name_reused, C82_wrong_function, C82_recursive_inner). Proved: the layout of the text for every closure when the globals' sources can be had (C65's defect excluded) and texts end at the end of a line; existence of the answer; the target last without decorated closure functions; values when no later part assigns the name."
  },
  {
   "property": "C83",
   "status": "partial",
   "theorems": [
    "Verif.Outermost.C83_sound",
    "Verif.Outermost.C83_found_partial",
    "Verif.Outermost.C83_answer_iff",
    "Verif.Outermost.C83_exact_partial",
    "Verif.Outermost.C83_none",
    "Verif.Outermost.C83_renamed"
   ],
   "note": "Soundness and the None case in full; found when the name occurs in the block's text (C83_renamed otherwise)."
  },
  {
   "property": "C84",
   "status": "partial",
   "theorems": [
    "Verif.Outermost.C84_sound",
    "Verif.Outermost.C84_complete_partial",
    "Verif.Outermost.C84_equal_code_missed"
   ],
   "note": "Soundness in full; completeness when different nested code objects are not equal (C84_equal_code_missed otherwise)."
  },
  {
   "property": "C85",
   "status": "partial",
   "theorems": [
    "Verif.ClosuredImport.C85_from_a_line",
    "Verif.ClosuredImport.C85_right_partial",
    "Verif.ClosuredImport.C85_single_line",
    "Verif.ClosuredImport.C85_wrong_closure",
    "Verif.ClosuredImport.C85_comment",
    "Verif.ClosuredImport.C85_comparison",
    "Verif.ClosuredImport.C85_prefix",
    "Verif.ClosuredImport.C85_decorated_helper"
   ],
   "note": "False in general (five witnesses). Proved: where the name comes from, in general; the right closure when all matching lines bind it; the answer when exactly one line matches."
  },
  {
   "property": "C86",
   "status": "proved",
   "theorems": [
    "Verif.Core.C86_failures_have_a_reason",
    "Verif.Core.C86_dumps_succeeds",
    "Verif.Core.C86_round_trip",
    "Verif.EndToEnd.C86_round_trip_bytes"
   ],
   "note": "C86_failures_have_a_reason (any graph, any limit), C86_dumps_succeeds, C86_round_trip (dumps, loads, exact copy)."
  },
  {
   "property": "C87",
   "status": "partial",
   "theorems": [
    "Verif.File.Fd.C87_number_not_in_use_partial",
    "Verif.File.Fd.C87_takes_over_the_descriptor",
    "Verif.File.Fd.C87_file_fmode_clobbers",
    "Verif.File.Fd.C87_contents_fmode_moves",
    "Verif.File.Fd.C87_file_fmode_overwrites",
    "Verif.File.Fd.C87_pickling_closes",
    "Verif.File.Fd.C87_pickling_harmless",
    "Verif.File.Fd.C87_file_fmode_needs_reading",
    "Verif.File.Fd.C87_full_false"
   ],
   "note": "False in general (C87_full_false, C87_takes_over_the_descriptor, C87_file_fmode_clobbers, C87_pickling_closes); holds when no open file has that number (C87_number_not_in_use_partial); pickling is harmless without FILE_FMODE."
  },
  {
   "property": "C88",
   "status": "partial",
   "theorems": [
    "Verif.Modules.C88_children",
    "Verif.Modules.C88_same_answer_partial",
    "Verif.Modules.C88_main_namespace",
    "Verif.Modules.C88_main_module",
    "Verif.Modules.C88_stock_pickler_partial",
    "Verif.Modules.C88_stock_pickler_raises",
    "Verif.Modules.C88_subclass_copies_namespace",
    "Verif.Modules.C88_full_false"
   ],
   "note": "False in general (C88_full_false, C88_subclass_copies_namespace, C88_stock_pickler_raises); proved: callers that allow subclasses, the namespace of __main__ outside sessions, the main module's contents, picklers whose module name does not mention dill."
  },
  {
   "property": "C89",
   "status": "proved",
   "theorems": [
    "Verif.Session.C89_imported",
    "Verif.Session.C89_runtime_object",
    "Verif.Session.C89_runtime_new",
    "Verif.Session.C89_from_disk",
    "Verif.Session.C89_submodule_from_disk"
   ],
   "note": "Three cases: imported module (C89_imported), run-time module given as object (C89_runtime_object), run-time module with no target (C89_runtime_new). Hypothesis Harmless: the pickled values import only modules that exist (the failing case is C16)."
  },
  {
   "property": "C90",
   "status": "partial",
   "theorems": [
    "Verif.Numpy.C90_own_reduction_partial",
    "Verif.Numpy.C90_array_saved_partial",
    "Verif.Numpy.C90_registration_wins",
    "Verif.Numpy.C90_other_classes",
    "Verif.Numpy.C90_without_numpy",
    "Verif.Numpy.C90_ufunc",
    "Verif.Numpy.C90_dtype_never",
    "Verif.Numpy.C90_array_restored",
    "Verif.Numpy.C90_history_matters",
    "Verif.Numpy.C90_full_false",
    "Verif.Numpy.C90_copyreg_ignored",
    "Verif.Numpy.C90_deleted_attribute_returns"
   ],
   "note": "False when the class gets its reduction after its first pickle (C90_history_matters, C90_full_false) or through copyreg (C90_copyreg_ignored), and for attributes deleted after __array_finalize__ set them (C90_deleted_attribute_returns). Proved for every other history."
  },
  {
   "property": "C91",
   "status": "partial",
   "theorems": [
    "Verif.ObjImport.C91_named_partial",
    "Verif.ObjImport.C91_lambda_partial",
    "Verif.ObjImport.C91_module",
    "Verif.ObjImport.C91_submodule",
    "Verif.ObjImport.C91_instance_partial",
    "Verif.ObjImport.C91_builtin_partial",
    "Verif.ObjImport.C91_builtin_bad_alias",
    "Verif.ObjImport.C91_data_partial",
    "Verif.ObjImport.C91_types_partial",
    "Verif.ObjImport.C91_singletons",
    "Verif.ObjImport.C91_method_misses",
    "Verif.ObjImport.C91_nested_class_misses",
    "Verif.ObjImport.C91_angle_data_misses",
    "Verif.ObjImport.C91_nan_string_misses",
    "Verif.ObjImport.C91_decimal_nan_misses",
    "Verif.ObjImport.C91_repr_name_misses",
    "Verif.ObjImport.C91_argument_lambda_misses",
    "Verif.ObjImport.C91_function_type_misses"
   ],
   "note": "Proved for objects their module holds under their own name, assigned lambdas, modules, instances of top-level classes with an object-style or Class(...) repr, builtins and builtin data; false for methods, nested classes, data with angle brackets or nan/inf in their text, unassigned lambdas (witness theorems C91_*_misses)."
  },
  {
   "property": "C92",
   "status": "partial",
   "theorems": [
    "Verif.ObjImport.C92_plain",
    "Verif.ObjImport.C92_instances",
    "Verif.ObjImport.C92_source_first",
    "Verif.ObjImport.C92_import_first",
    "Verif.ObjImport.C92_source_last",
    "Verif.ObjImport.C92_name_last",
    "Verif.ObjImport.C92_instance",
    "Verif.ObjImport.C92_unverified_number"
   ],
   "note": "The order of the ways and the text for instances are proved in full; the text is not executable for numbers with the default options (C92_unverified_number)."
  },
  {
   "property": "C93",
   "status": "partial",
   "theorems": [
    "Verif.MatchLambda.C93_found_partial",
    "Verif.MatchLambda.C93_sound_partial",
    "Verif.MatchLambda.C93_closure_not_found",
    "Verif.MatchLambda.C93_comment_raises",
    "Verif.MatchLambda.C93_closure_taken_partial",
    "Verif.MatchLambda.C93_closure_line",
    "Verif.MatchLambda.C93_constants_ignored",
    "Verif.MatchLambda.C93_uncompilable_taken",
    "Verif.MatchLambda.C93_closure_raises"
   ],
   "note": "Proved for lambdas without free variables, when no later line with a lambda is compared by the same bytecode (both directions); for closures exactly which lines are taken (C93_closure_taken_partial) and when the search raises (C93_closure_line); false otherwise, by C93_constants_ignored, C93_uncompilable_taken, C93_closure_not_found, C93_closure_raises, C93_comment_raises."
  },
  {
   "property": "C94",
   "status": "partial",
   "theorems": [
    "Verif.ClassHooks.C94_no_hooks",
    "Verif.ClassHooks.C94_other_attributes_partial",
    "Verif.ClassHooks.C94_hook_attributes",
    "Verif.ClassHooks.C94_loads_iff",
    "Verif.ClassHooks.C94_unchanged_iff",
    "Verif.ClassHooks.C94_enum_never_loads",
    "Verif.ClassHooks.C94_keyword_lost",
    "Verif.ClassHooks.C94_registry_emptied",
    "Verif.ClassHooks.C94_required_keyword_fails",
    "Verif.ClassHooks.C94_statement"
   ],
   "note": "Proved in full for classes without hooks; for classes with hooks: attributes no hook assigns are kept, the others are characterised exactly (C94_hook_attributes, C94_unchanged_iff, C94_loads_iff). False in general: C94_keyword_lost, C94_registry_emptied, C94_required_keyword_fails, C94_enum_never_loads."
  },
  {
   "property": "C95",
   "status": "partial",
   "theorems": [
    "Verif.Wrap.C95_calls_the_last_partial",
    "Verif.Wrap.C95_own_function_partial",
    "Verif.Wrap.C95_one_thread_partial",
    "Verif.Wrap.C95_some_wrapped_function",
    "Verif.Wrap.C95_race",
    "Verif.Wrap.C95_clobbers"
   ],
   "note": "Proved in full for one thread (C95_one_thread_partial) and, for any number of threads, exactly which function is called (C95_calls_the_last_partial). False in general: C95_race, C95_clobbers."
  },
  {
   "property": "C96",
   "status": "partial",
   "theorems": [
    "Verif.Diff.C96_imported_is_memorised",
    "Verif.Diff.C96_records",
    "Verif.Diff.C96_exact",
    "Verif.Diff.C96_since_import_partial",
    "Verif.Diff.C96_failed_import",
    "Verif.Diff.C96_failed_import_again",
    "Verif.Diff.C96_circular_import",
    "Verif.Diff.C96_raising_import"
   ],
   "note": "C96_imported_is_memorised and C96_exact hold for every import; C96_since_import_partial needs that nothing a nested import could see was touched after that import returned; false otherwise (C96_circular_import)."
  },
  {
   "property": "C97",
   "status": "partial",
   "theorems": [
    "Verif.Diff.C97_releases_gone_partial",
    "Verif.Diff.C97_releases_nothing",
    "Verif.Diff.C97_forgets_everything",
    "Verif.Diff.C97_number_reused"
   ],
   "note": "Exact where the call itself holds three references (C97_releases_gone_partial); false on CPython up to 3.13 (C97_releases_nothing) and on PyPy (C97_forgets_everything); identities can be reused (C97_number_reused)."
  },
  {
   "property": "C98",
   "status": "partial",
   "theorems": [
    "Verif.Snapshot.C98_snapshot_partial",
    "Verif.Snapshot.C98_ref_values_partial",
    "Verif.Snapshot.C98_ref_quiet_partial",
    "Verif.Snapshot.C98_ref_reassigned_partial",
    "Verif.Snapshot.C98_ref_nothing_imported_partial",
    "Verif.Snapshot.C98_ref_torn",
    "Verif.Snapshot.C98_ref_raises",
    "Verif.Snapshot.C98_ref_name_lost"
   ],
   "note": "Holds without refimported for every schedule (C98_snapshot_partial); with refimported when nobody touches the module (C98_ref_quiet_partial), or when nothing is imported and others only rebind (C98_ref_nothing_imported_partial); names only when others only rebind (C98_ref_reassigned_partial), values always (C98_ref_values_partial); false otherwise (C98_ref_torn, C98_ref_raises, C98_ref_name_lost)."
  },
  {
   "property": "C99",
   "status": "partial",
   "theorems": [
    "Verif.Super.C99_super_partial",
    "Verif.Super.C99_unbound",
    "Verif.Super.C99_just_made_partial",
    "Verif.Super.C99_start_recomputed",
    "Verif.Super.C99_shadowed_self",
    "Verif.Super.C99_shadowed_self_other",
    "Verif.Super.C99_class_changed",
    "Verif.Super.C99_class_changed_fails"
   ],
   "note": "Exact for every unbound proxy (C99_unbound) and for every bound one whose class is unchanged and whose bases do not define __self__ or __thisclass__ (C99_super_partial, C99_just_made_partial); which class is searched in general: C99_start_recomputed; false otherwise (C99_shadowed_self, C99_shadowed_self_other, C99_class_changed, C99_class_changed_fails)."
  },
  {
   "property": "C100",
   "status": "partial",
   "theorems": [
    "Verif.AsDict.C100_separate_partial",
    "Verif.AsDict.C100_ends",
    "Verif.AsDict.C100_names_not_mixed",
    "Verif.AsDict.C100_overlap",
    "Verif.AsDict.C100_overlap_fails"
   ],
   "note": "Proved for all schedules in which calls for one name do not overlap, calls for different names interleaving freely (C100_separate_partial); every schedule: names and sessions are never mixed across module names (C100_names_not_mixed), every call ends (C100_ends). The full claim is false of the code: C100_overlap, C100_overlap_fails."
  },
  {
   "property": "C101",
   "status": "partial",
   "theorems": [
    "Verif.Swaps.C101_nested_partial",
    "Verif.Swaps.C101_capture_apart_partial",
    "Verif.Swaps.C101_dump_functions_partial",
    "Verif.Swaps.C101_stdout_lost",
    "Verif.Swaps.C101_warnings_off",
    "Verif.Swaps.C101_filters_changed",
    "Verif.Swaps.C101_filter_of_program_lost",
    "Verif.Swaps.C101_pickles_overlap"
   ],
   "note": "Proved for every schedule in which blocks nest (C101_nested_partial, C101_dump_functions_partial) or do not overlap (C101_capture_apart_partial). Otherwise false of the code: C101_stdout_lost, C101_warnings_off, C101_filters_changed, C101_filter_of_program_lost, C101_pickles_overlap."
  },
  {
   "property": "C102",
   "status": "partial",
   "theorems": [
    "Verif.FileRace.C102_contents_harmless",
    "Verif.FileRace.C102_handle_harmless",
    "Verif.FileRace.C102_only_that_file",
    "Verif.FileRace.C102_alone",
    "Verif.FileRace.C102_file_prefix_partial",
    "Verif.FileRace.C102_file_killed",
    "Verif.FileRace.C102_failed_load_empties",
    "Verif.FileRace.C102_position_beyond_end",
    "Verif.FileRace.C102_vanished",
    "Verif.FileRace.C102_write_bytes"
   ],
   "note": "CONTENTS_FMODE and HANDLE_FMODE: proved for all interleavings and crash points (C102_contents_harmless, C102_handle_harmless), other files never touched (C102_only_that_file). FILE_FMODE: old contents or a prefix of the pickled ones (C102_file_prefix_partial); the full claim is false of the code (C102_file_killed, C102_failed_load_empties)."
  },
  {
   "property": "C103",
   "status": "proved",
   "theorems": [
    "Verif.Core.C103_same_pickle",
    "Verif.Core.C103_same_bytes",
    "Verif.Core.C103_unreachable_irrelevant",
    "Verif.Core.C103_set_order_matters",
    "Verif.Core.C103_recurse_order_matters"
   ],
   "note": "Proved for whole pickles of the Core model, including the exception raised if dumps fails, and for the bytes. Iteration order is part of the object; two theorems show that it matters."
  },
  {
   "property": "C104",
   "status": "partial",
   "theorems": [
    "Verif.Live.C104_closed",
    "Verif.Live.C104_values",
    "Verif.Live.C104_snapshot_partial",
    "Verif.Live.C104_append_only_partial",
    "Verif.Live.C104_only_grows_partial",
    "Verif.Live.C104_rebind_only",
    "Verif.Live.C104_list_no_error",
    "Verif.Live.C104_still",
    "Verif.Live.C104_finishes",
    "Verif.Live.C104_list_torn",
    "Verif.Live.C104_dict_torn",
    "Verif.Live.C104_moment_differs",
    "Verif.Live.C104_endless"
   ],
   "note": "A consistent snapshot is false of the code (C104_list_torn, C104_dict_torn, C104_moment_differs, C104_endless); the conditions under which a container is a snapshot are proved for every schedule."
  },
  {
   "property": "C105",
   "status": "partial",
   "theorems": [
    "Verif.OldNames.C105_old_protocols_iff",
    "Verif.OldNames.C105_new_protocols_iff",
    "Verif.OldNames.C105_no_fix",
    "Verif.OldNames.C105_namespace_iff",
    "Verif.OldNames.C105_fixed_refs",
    "Verif.OldNames.C105_not_ascii",
    "Verif.OldNames.C105_exception_replaced",
    "Verif.OldNames.C105_user_module_lost",
    "Verif.OldNames.C105_wrong_namespace"
   ],
   "note": "Exact for every name and protocol: C105_old_protocols_iff, C105_new_protocols_iff and C105_namespace_iff say precisely which references come back. The property itself is false at protocols 0 to 2 (witnesses). Only which name is looked up is modelled, not the lookup; top-level names."
  },
  {
   "property": "C106",
   "status": "partial",
   "theorems": [
    "Verif.Keys.C106_keys_whole_partial",
    "Verif.Keys.C106_every_key",
    "Verif.Keys.C106_top_container",
    "Verif.Keys.C106_early_hash",
    "Verif.Keys.C106_depends_on_root",
    "Verif.Keys.C106_frozenset",
    "Verif.Keys.C106_every_protocol_partial",
    "Verif.Keys.C106_every_key_every_protocol",
    "Verif.Keys.C106_old_sets"
   ],
   "note": "False for a key from which its container can be reached (C106_early_hash, C106_frozenset). Proved for all other keys of all graphs, and for the keys of a dumped dict or set even if they refer back to it (C106_top_container); C106_every_key says that the log misses no key. The same at every protocol (C106_every_protocol_partial, C106_every_key_every_protocol), except that up to protocol 3 even a dumped set is made from its elements (C106_old_sets). Functions, classes and other atoms are hashed by identity; constructors are assumed not to hash their arguments."
  },
  {
   "property": "C107",
   "status": "partial",
   "theorems": [
    "Verif.Overwrite.C107_any_moment",
    "Verif.Overwrite.C107_finished",
    "Verif.Overwrite.C107_splice",
    "Verif.Overwrite.C107_one_read_partial",
    "Verif.Overwrite.C107_later_reader",
    "Verif.Overwrite.C107_bytes_from_dumps",
    "Verif.Overwrite.C107_same_session",
    "Verif.Overwrite.C107_torn_load",
    "Verif.Overwrite.C107_torn_file",
    "Verif.Overwrite.C107_gap"
   ],
   "note": "False for a reader that needs several reads and for two simultaneous dumps of different sessions (C107_torn_load, C107_torn_file). Proved for all schedules: the file at any moment loads as the old file, as the new session or not at all (C107_any_moment); a finished dump has left its session (C107_finished); a reader that opens after the dump (C107_later_reader) or whose buffer takes the old file in one read (C107_one_read_partial) loads old, new or nothing; what a reader gets is always old head plus new bytes in place (C107_splice); any number of dumps of the same bytes leave them (C107_same_session), and no byte appears that no dump has at this place, but zeros (C107_bytes_from_dumps). POSIX open/read/write are trusted definitions; the file is not removed or renamed by others."
  },
  {
   "property": "C108",
   "status": "partial",
   "theorems": [
    "Verif.Core.C108_everywhere_partial",
    "Verif.Core.C108_bound_method_partial",
    "Verif.Core.C108_function_apart"
   ],
   "note": "False when the class is pickled by reference and the function by value (C108_function_apart). Proved for every graph (C108_everywhere_partial): self and function of the copied method are where every other path to them leads, also from the object through its class, unless a reference to the name of a class or function was written on the way; and without that exception for graphs without circular functions or classes (C108_bound_method_partial)."
  },
  {
   "property": "C109",
   "status": "proved",
   "theorems": [
    "Verif.Wire.C109_newer_loads",
    "Verif.Wire.C109_older_refuses",
    "Verif.Wire.C109_exactly"
   ],
   "note": "About the byte format: loadFileAt P has only the opcodes of the protocols up to P. That the names in a pickle (dill._dill helpers, modules) exist in the other Python, and that its marshalled code is of the right version, are other matters (C08, C105)."
  },
  {
   "property": "C110",
   "status": "proved",
   "theorems": [
    "Verif.Core.C110_selected",
    "Verif.Core.C110_dataclass",
    "Verif.Core.C110_copied",
    "Verif.Core.C110_marker_itself"
   ],
   "note": "For every object graph; C110_selected: any attributes of the fields compared with any markers or constants. A class needed for its own creation may come back as a reference to its name (C01): then the class itself, not a copy, is there (ByName; C110_copied gives a condition under which this does not happen). C110_marker_itself: exactly the markers that the dataclasses module has under their name come back as themselves. Fields of a base class that is by reference, and fields whose marker is another library's, are not meant."
  },
  {
   "property": "C111",
   "status": "proved",
   "theorems": [
    "Verif.Core.C111_length",
    "Verif.Core.C111_linear",
    "Verif.Core.C111_linear_acyclic",
    "Verif.Core.C111_quadratic"
   ],
   "note": "C111_length: at most 2 + (N+1)\u00b7\u03a3(40 + 6\u00b7references) opcodes for every graph (finite set of objects closed under references, no creation cycle, as in C02). C111_quadratic: the growth can be quadratic, so the bound has the right order. C111_linear: if no object other than a cell is reachable (by any references) from what has to exist before it is created, 2 + 2\u00b7\u03a3(40 + 6\u00b7references): everything shared is written once, whatever cycles run through lists, dicts, sets, functions, classes, cells or instance states. C111_linear_acyclic: the same for graphs without cycles (a tower of k pairs, a tree of 2^k leaves, is written with at most 104(k+1)+2 opcodes)."
  },
  {
   "property": "C112",
   "status": "partial",
   "theorems": [
    "Verif.Core.C112_again_shows_what_was_loaded",
    "Verif.Core.C112_copies_of_copies_partial",
    "Verif.Core.C112_never_fails_partial",
    "Verif.Core.C112_nothing_added_partial"
   ],
   "note": "C112_copies_of_copies_partial, C112_never_fails_partial: any number of round trips of a graph none of whose functions or classes is needed for its own creation (such a graph can fail or be replaced by a name, C86, C01); functions with a copy of their globals included. C112_nothing_added_partial: nothing is added, if also no list item is needed to create its list (else items are appended twice, C01_items_repeated)."
  },
  {
   "property": "C113",
   "status": "partial",
   "theorems": [
    "Verif.OldSets.C113_everything_once",
    "Verif.OldSets.C113_made_in_order",
    "Verif.OldSets.C113_limit_enough",
    "Verif.OldSets.C113_can_dump_iff",
    "Verif.OldSets.C113_limit_irrelevant",
    "Verif.OldSets.C113_higher_protocols",
    "Verif.OldSets.C113_any_protocol_partial",
    "Verif.OldSets.C113_two_kinds",
    "Verif.OldSets.C113_full_false",
    "Verif.OldSets.C113_copy_can_dump",
    "Verif.OldSets.C113_generations",
    "Verif.OldSets.C113_pickle_iff",
    "Verif.OldSets.C113_same_copy",
    "Verif.OldSets.C113_round_trip",
    "Verif.OldSets.C113_protocols_agree"
   ],
   "note": "False of the code (C113_full_false). C113_can_dump_iff says exactly which finite graphs can be pickled at which protocol, and C113_limit_enough that (N+1)^2 nested saves are then enough; C113_any_protocol_partial: the protocol does not matter if no set is needed to make itself; C113_higher_protocols: a higher protocol never does worse. C113_same_copy: whatever the protocol, a pickle (an opcode list, run by an unpickler) loads to an exact copy with the elements of the sets in order; C113_protocols_agree: what is loaded at two protocols is the same; C113_copy_can_dump and C113_generations: the copy, or the copy of copies at any protocols, is again a copy and can be pickled exactly where the original can; C113_round_trip puts these together. Functions and classes are taken as found by name."
  },
  {
   "property": "C114",
   "status": "partial",
   "theorems": [
    "Verif.Scripts.C114_undill_exact",
    "Verif.Scripts.C114_undill_partial",
    "Verif.Scripts.C114_undill_full_false",
    "Verif.Scripts.C114_objgraph_partial",
    "Verif.Scripts.C114_objgraph_writes",
    "Verif.Scripts.C114_objgraph_full_false",
    "Verif.Scripts.C114_gprof_partial",
    "Verif.Scripts.C114_gprof_exact",
    "Verif.Scripts.C114_gprof_full_false",
    "Verif.Scripts.C114_gprof_leftover"
   ],
   "note": "False of the code (C114_undill_full_false, C114_objgraph_full_false, C114_gprof_full_false, C114_gprof_leftover). Proved for all runs: what undill prints exactly (C114_undill_exact) and all of it for files of one object (C114_undill_partial); get_objgraph leaves its input alone unless it is a pickle called *.png (C114_objgraph_partial), and changes exactly one file, which is named (C114_objgraph_writes); which files get_gprof changes, exactly (C114_gprof_exact), and that there are no others but the graph if dumps succeeds and there is no <type>.prof (C114_gprof_partial)."
  },
  {
   "property": "C115",
   "status": "partial",
   "theorems": [
    "Verif.Info.C115_exact",
    "Verif.Info.C115_same_text_partial",
    "Verif.Info.C115_harmless_backslashes_partial",
    "Verif.Info.C115_full_false",
    "Verif.Info.C115_line_break"
   ],
   "note": "False of the code for texts that the literal cannot hold (C115_full_false, C115_line_break). C115_exact: for texts without backslashes, the texts agree exactly if there are no three quotes in a row and no quote at the end; C115_same_text_partial is the direction users need. C115_harmless_backslashes_partial: the same with backslashes, if each is followed by a character that Python gives no meaning there. For other backslashes only the witness is proved."
  }
 ]
}