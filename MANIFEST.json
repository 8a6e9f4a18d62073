{
 "claims": [
  {
   "property": "C01",
   "status": "proved",
   "theorems": [
    "Verif.Ebitmap.built_wf",
    "Verif.Ebitmap.C01_set_bit",
    "Verif.Ebitmap.C01_history",
    "Verif.Ebitmap.C01_init_range"
   ],
   "note": ""
  },
  {
   "property": "C02",
   "status": "partial",
   "theorems": [
    "Verif.Ebitmap.C02_or_and_xor",
    "Verif.Ebitmap.C02_not_andnot_partial",
    "Verif.Ebitmap.C02_not_sound",
    "Verif.Ebitmap.C02_not_diverges"
   ],
   "note": "Set algebra is proved for all inputs. Termination of ebitmap_not fails for maxbit > 2^32-64 (machine-checked refutation C02_not_diverges); below that bound everything is proved."
  },
  {
   "property": "C03",
   "status": "proved",
   "theorems": [
    "Verif.Ebitmap.C03_relations",
    "Verif.Ebitmap.C03_canonical",
    "Verif.Ebitmap.C03_cardinality",
    "Verif.Ebitmap.C03_hamming",
    "Verif.Ebitmap.C03_highest"
   ],
   "note": ""
  },
  {
   "property": "C04",
   "status": "proved",
   "theorems": [
    "Verif.Ebitmap.C04_for_each_positive_bit",
    "Verif.Ebitmap.C04_for_each_bit"
   ],
   "note": ""
  },
  {
   "property": "C05",
   "status": "proved",
   "theorems": [
    "Verif.Ebitmap.C05_read_wf",
    "Verif.Ebitmap.C05_round_trip"
   ],
   "note": ""
  },
  {
   "property": "C06",
   "status": "proved",
   "theorems": [
    "Verif.Avtab.C06_insert",
    "Verif.Avtab.C06_search",
    "Verif.Avtab.C06_search_latest",
    "Verif.Avtab.C06_unique",
    "Verif.Avtab.C06_unallocated"
   ],
   "note": "Over all histories of avtab_insert/avtab_insert_nonunique; real murmur hash included in the model."
  },
  {
   "property": "C07",
   "status": "proved",
   "theorems": [
    "Verif.Avtab.C07_enumerate",
    "Verif.Avtab.C07_map"
   ],
   "note": "Enumeration is a permutation of the answering accepted rules."
  },
  {
   "property": "C40",
   "status": "proved",
   "theorems": [
    "Verif.Avtab.C40_write_read"
   ],
   "note": "The format of tables of policy versions from 20 on; tables built by avtab_insert. That rules with extended permissions can be written is a condition on each such rule, which C88 meets for the versions that have them."
  },
  {
   "property": "C41",
   "status": "proved",
   "theorems": [
    "Verif.Avtab.C41_read_sound"
   ],
   "note": "Any byte string accepted by avtab_read (new format, in-memory)."
  },
  {
   "property": "C08",
   "status": "proved",
   "theorems": [
    "Verif.Mls.C08_dom_eq_spec",
    "Verif.Mls.C08_partial_order",
    "Verif.Mls.C08_incomp_between",
    "Verif.Mls.C08_range_contains"
   ],
   "note": "For all well-formed category bitmaps."
  },
  {
   "property": "C09",
   "status": "proved",
   "theorems": [
    "Verif.Mls.C09_valid_iff_authorised"
   ],
   "note": "Exact characterisation, for policies whose sensitivities only use defined categories."
  },
  {
   "property": "C10",
   "status": "partial",
   "theorems": [
    "Verif.Mls.C10_round_trip_partial",
    "Verif.Mls.C10_round_trip_128_partial",
    "Verif.Mls.C10_wrong_categories",
    "Verif.Mls.C10_reversed_interval_rejected"
   ],
   "note": "The full claim is false: C10_wrong_categories. Proved for category sets without a run ending at a word boundary before an empty word."
  },
  {
   "property": "C11",
   "status": "partial",
   "theorems": [
    "Verif.Mls.C11_round_trip_partial",
    "Verif.Mls.C11_from_string_sound",
    "Verif.Mls.C11_cmp_cpy",
    "Verif.Mls.C11_none_undefined"
   ],
   "note": "Round trip under the C10 condition; soundness of parsing for every string; <<none>> is undefined behaviour."
  },
  {
   "property": "C42",
   "status": "proved",
   "theorems": [
    "Verif.Mls.C42_exact_length"
   ],
   "note": "For every policy and context."
  },
  {
   "property": "C43",
   "status": "proved",
   "theorems": [
    "Verif.Mls.C43_glblub"
   ],
   "note": ""
  },
  {
   "property": "C44",
   "status": "proved",
   "theorems": [
    "Verif.Mls.C44_user_range"
   ],
   "note": ""
  },
  {
   "property": "C45",
   "status": "proved",
   "theorems": [
    "Verif.Mls.C45_convert",
    "Verif.Mls.C45_convert_self"
   ],
   "note": ""
  },
  {
   "property": "C12",
   "status": "partial",
   "theorems": [
    "Verif.Cond.C12_value",
    "Verif.Cond.C12_malformed_partial",
    "Verif.Cond.C12_surplus_operands"
   ],
   "note": "Value for every expression proved; malformed input: everything but surplus operands gives -1, surplus operands are ignored (C12_surplus_operands)."
  },
  {
   "property": "C13",
   "status": "proved",
   "theorems": [
    "Verif.Cond.C13_enabled_iff",
    "Verif.Cond.C13_stale_flags_kept"
   ],
   "note": "For every history from a consistent state; C13_stale_flags_kept shows that an inconsistent policy file stays inconsistent."
  },
  {
   "property": "C14",
   "status": "partial",
   "theorems": [
    "Verif.Cond.C14_normalize",
    "Verif.Cond.C14_error_clobbers"
   ],
   "note": "Proved for every well-formed expression that fits the stack; on the error return the booleans are clobbered (C14_error_clobbers)."
  },
  {
   "property": "C15",
   "status": "partial",
   "theorems": [
    "Verif.Cond.C15_equal_sound_partial",
    "Verif.Cond.C15_equal_up_to_order",
    "Verif.Cond.C15_one_bool",
    "Verif.Cond.C15_equal_complete",
    "Verif.Cond.C15_not_equivalent"
   ],
   "note": "The full claim is false (C15_not_equivalent)."
  },
  {
   "property": "C46",
   "status": "proved",
   "theorems": [
    "Verif.Cond.C46_optimize"
   ],
   "note": ""
  },
  {
   "property": "C47",
   "status": "partial",
   "theorems": [
    "Verif.Cond.C47_expand_partial",
    "Verif.Cond.C47_double_negation",
    "Verif.Cond.C47_wrong_merge"
   ],
   "note": "False for doubly negated conditions and wrongly merged conditionals; proved otherwise."
  },
  {
   "property": "C20",
   "status": "partial",
   "theorems": [
    "Verif.Sidtab.C20_convert",
    "Verif.Sidtab.C20_stable",
    "Verif.Sidtab.C20_same_iff",
    "Verif.Sidtab.C20_unknown",
    "Verif.Sidtab.C20_count",
    "Verif.Sidtab.C20_wrap_refuted",
    "Verif.Sidtab.C20_late_insert_refuted"
   ],
   "note": "Proved for every history in which initial SIDs are below UINT_MAX and are loaded before contexts are converted; both restrictions are necessary (the two _refuted theorems)."
  },
  {
   "property": "C21",
   "status": "partial",
   "theorems": [
    "Verif.Sidtab.C21_load_failure_partial",
    "Verif.Sidtab.C21_refuted",
    "Verif.Sidtab.C21_accepted_iff"
   ],
   "note": "False when the image cannot be parsed: the active policy is destroyed (C21_refuted). Proved for rejected parsed images."
  },
  {
   "property": "C48",
   "status": "proved",
   "theorems": [
    "Verif.Sidtab.C48_reload",
    "Verif.Sidtab.C48_kept"
   ],
   "note": ""
  },
  {
   "property": "C49",
   "status": "partial",
   "theorems": [
    "Verif.Sidtab.C49_no_reuse_partial",
    "Verif.Sidtab.C49_refuted"
   ],
   "note": "True over one reload, false over two (C49_refuted)."
  },
  {
   "property": "C16",
   "status": "partial",
   "theorems": [
    "Verif.Services.C16_allowed",
    "Verif.Services.C16_total",
    "Verif.Services.C16_by_sid",
    "Verif.Services.C16_cyclic_bounds_refuted"
   ],
   "note": "Proved for every policy with acyclic type bounds and 16-bit type numbers. With cyclic bounds, which no check of a binary policy excludes, the computation never returns (C16_cyclic_bounds_refuted)."
  },
  {
   "property": "C17",
   "status": "proved",
   "theorems": [
    "Verif.Services.C17_value",
    "Verif.Services.C17_too_deep",
    "Verif.Services.C17_validated",
    "Verif.Services.C17_unique",
    "Verif.Services.C17_transition"
   ],
   "note": ""
  },
  {
   "property": "C18",
   "status": "partial",
   "theorems": [
    "Verif.Services.C18_malformed_refuted",
    "Verif.Services.C18_leftover_refuted",
    "Verif.Services.C18_enough_partial",
    "Verif.Services.C18_meaningless_partial",
    "Verif.Services.C18_validated_partial"
   ],
   "note": "False for policies that were not validated: missing operands (-EINVAL counts as satisfied) and surplus operands. Proved for all other kinds of malformed programs and for validated policies."
  },
  {
   "property": "C50",
   "status": "proved",
   "theorems": [
    "Verif.Services.C50_audit"
   ],
   "note": ""
  },
  {
   "property": "C51",
   "status": "partial",
   "theorems": [
    "Verif.Services.C51_reasons_partial",
    "Verif.Services.C51_no_reason",
    "Verif.Services.C51_bounds_refuted"
   ],
   "note": "Exact for type enforcement, constraints and role rules; bounds are reported even if only permissions not requested are removed (C51_bounds_refuted)."
  },
  {
   "property": "C19",
   "status": "partial",
   "theorems": [
    "Verif.Services.C19_label",
    "Verif.Services.C19_unique",
    "Verif.Services.C19_enforcing",
    "Verif.Services.C19_permissive_refuted"
   ],
   "note": "Every successful result follows the rules, and is a valid context in enforcing mode. In permissive mode an invalid result for an invalid class number reads outside the class name array (C19_permissive_refuted)."
  },
  {
   "property": "C25",
   "status": "partial",
   "theorems": [
    "Verif.Services.C25_fs",
    "Verif.Services.C25_netif",
    "Verif.Services.C25_port",
    "Verif.Services.C25_ibpkey",
    "Verif.Services.C25_ibendport",
    "Verif.Services.C25_node",
    "Verif.Services.C25_node6",
    "Verif.Services.C25_genfs",
    "Verif.Services.C25_genfs_unique",
    "Verif.Services.C25_fs_use_partial",
    "Verif.Services.C25_stable",
    "Verif.Services.C25_fs_use_refuted"
   ],
   "note": "Proved for every lookup and every history; sepol_fs_use reports success without a SID when the SID table is full (C25_fs_use_refuted)."
  },
  {
   "property": "C52",
   "status": "partial",
   "theorems": [
    "Verif.Services.C52_user_sids",
    "Verif.Services.C52_unknown",
    "Verif.Services.C52_nonmls_refuted",
    "Verif.Services.C52_error_with_array"
   ],
   "note": "Proved for MLS policies; without MLS an uninitialised variable is read (C52_nonmls_refuted)."
  },
  {
   "property": "C24",
   "status": "proved",
   "theorems": [
    "Verif.Hashtab.C24_table_is_map",
    "Verif.Hashtab.C24_create",
    "Verif.Hashtab.C24_insert",
    "Verif.Hashtab.C24_remove",
    "Verif.Hashtab.C24_map",
    "Verif.Hashtab.C24_load",
    "Verif.Hashtab.C24_symtab",
    "Verif.Hashtab.C24_range_tr",
    "Verif.Hashtab.C24_filename_trans"
   ],
   "note": "For every hash and comparison function meeting OpsOk, and for the three instances of the library; table sizes are positive."
  },
  {
   "property": "C22",
   "status": "proved",
   "theorems": [
    "Verif.Optimize.C22_total",
    "Verif.Optimize.C22_decisions",
    "Verif.Optimize.C22_access_vectors",
    "Verif.Optimize.C22_type_rules",
    "Verif.Optimize.C22_type_listed_as_attribute_refuted"
   ],
   "note": "For every policy whose rule tables are well formed and whose type map lists for a type only itself and attributes. The last theorem shows the condition on the type map cannot be dropped: readers and the validator accept a map that lists another type, and the optimiser then removes a rule that applied (DESIGN.md F20)."
  },
  {
   "property": "C23",
   "status": "partial",
   "theorems": [
    "Verif.Assertion.C23_check_plain",
    "Verif.Assertion.C23_never_allowed",
    "Verif.Assertion.C23_xperms_sound_partial",
    "Verif.Assertion.C23_xperms_exact_partial",
    "Verif.Assertion.C23_assertions_partial",
    "Verif.Assertion.C23_accepts_partial",
    "Verif.Assertion.C23_self_with_targets_refuted",
    "Verif.Assertion.C23_conditional_false_report_refuted",
    "Verif.Assertion.C23_nlmsg_refuted"
   ],
   "note": "The check of a single plain rule is exact. check_assertions as a whole is exact for plain rules unless a rule names self together with other targets: then the code misses violations (C23_self_with_targets_refuted). neverallowxperm rules: sound if the allowxperm rules are of the same kind, exact without conditionals; the two other refutations show why the conditions are needed. Fewer than 2^32 reports per rule."
  },
  {
   "property": "C26",
   "status": "partial",
   "theorems": [
    "Verif.Avc.C26_no_grant",
    "Verif.Avc.C26_denial",
    "Verif.Avc.C26_errors",
    "Verif.Avc.C26_transparent",
    "Verif.Avc.C26_hit",
    "Verif.Avc.C26_first_check_refuted",
    "Verif.Avc.C26_callback_refuted"
   ],
   "note": "Proved for every history of the cache, and against the kernel for every process that polled the status page once after avc_open and whose callbacks succeed. Without the first poll, or with failing callbacks, the claim is false (the two _refuted theorems, DESIGN.md F25 and F26)."
  },
  {
   "property": "C27",
   "status": "partial",
   "theorems": [
    "Verif.Avc.C27_no_leak",
    "Verif.Avc.C27_switch",
    "Verif.Avc.C26_first_check_refuted"
   ],
   "note": "Proved for every history in which the switch is notified; a switch between avc_open and the first check is not noticed (C26_first_check_refuted)."
  },
  {
   "property": "C28",
   "status": "partial",
   "theorems": [
    "Verif.Avc.C28_fresh",
    "Verif.Avc.C28_stale",
    "Verif.Avc.C28_retained",
    "Verif.Avc.C28_control_partial",
    "Verif.Avc.C28_duplicate_refuted"
   ],
   "note": "Freshness and refusal of stale answers are proved. Control events are exact for wildcards and for triples with one cached entry; with two entries for a triple a revocation misses one of them (C28_duplicate_refuted)."
  },
  {
   "property": "C29",
   "status": "proved",
   "theorems": [
    "Verif.Avc.C29_capacity"
   ],
   "note": ""
  },
  {
   "property": "C31",
   "status": "proved",
   "theorems": [
    "Verif.Avc.C31_bijection"
   ],
   "note": "Over every history of avc_context_to_sid; memory may fail at any call."
  },
  {
   "property": "C53",
   "status": "proved",
   "theorems": [
    "Verif.Avc.C53_create"
   ],
   "note": ""
  },
  {
   "property": "C54",
   "status": "proved",
   "theorems": [
    "Verif.Avc.C54_audit",
    "Verif.Avc.C54_failure"
   ],
   "note": "Log text formatting is not modelled."
  },
  {
   "property": "C30",
   "status": "partial",
   "theorems": [
    "Verif.Status.C30_snapshot_partial",
    "Verif.Status.C30_updated_partial",
    "Verif.Status.C30_getters_partial",
    "Verif.Status.C30_unchanged_partial",
    "Verif.Status.C30_returns",
    "Verif.Status.C30_wrap_refuted",
    "Verif.Status.C30_barrier_refuted"
   ],
   "note": "Proved for every interleaving of loads and stores in program order with fewer than 2^31 updates during a call. Without the bound the claim is false (C30_wrap_refuted), and so it is on machines or with compilers that reorder the field loads after the second load of the sequence number, which no barrier prevents (C30_barrier_refuted)."
  },
  {
   "property": "C32",
   "status": "partial",
   "theorems": [
    "Verif.Context.C32_accept",
    "Verif.Context.C32_components",
    "Verif.Context.C32_roundtrip_partial",
    "Verif.Context.C32_roundtrip_refuted",
    "Verif.Context.C32_set",
    "Verif.Context.C32_str",
    "Verif.Context.C32_str_refuted",
    "Verif.Context.C32_reparse"
   ],
   "note": "Acceptance, getters and setters are characterised exactly. The round trip is false for strings whose last component is empty (C32_roundtrip_refuted); C32_roundtrip_partial gives the exact result for all strings. context_str is undefined when the user was set to NULL (C32_str_refuted)."
  },
  {
   "property": "C33",
   "status": "proved",
   "theorems": [
    "Verif.Mapping.C33_decision",
    "Verif.Mapping.C33_unknown_class",
    "Verif.Mapping.C33_outside",
    "Verif.Mapping.C33_reject",
    "Verif.Mapping.C33_failure"
   ],
   "note": "Stated in terms of class and permission names. The cache must belong to the loaded policy (Coherent); see C55_stale_refuted for what happens otherwise."
  },
  {
   "property": "C55",
   "status": "partial",
   "theorems": [
    "Verif.Mapping.C55_raw",
    "Verif.Mapping.C55_mapped",
    "Verif.Mapping.C55_check_access",
    "Verif.Mapping.C55_av_string",
    "Verif.Mapping.C55_undiscovered_refuted",
    "Verif.Mapping.C55_stale_refuted"
   ],
   "note": "Proved for a cache that belongs to the loaded policy and for permissions of classes that were looked up by name; both conditions are needed (the refuted theorems)."
  },
  {
   "property": "C34",
   "status": "partial",
   "theorems": [
    "Verif.Sha.C34_digest_partial",
    "Verif.Sha.C34_digest_refuted"
   ],
   "note": "Proved for every split into calls of at most 2^32-64 bytes, on a little-endian host. For longer calls, which the argument type allows, the code overruns its buffer (C34_digest_refuted)."
  },
  {
   "property": "C56",
   "status": "proved",
   "theorems": [
    "Verif.Sha.C56_digest",
    "Verif.Sha.C56_constants"
   ],
   "note": "For messages of any length (the length field is taken modulo 2^64, as in the code; FIPS 180-4 only defines shorter messages)."
  },
  {
   "property": "C57",
   "status": "partial",
   "theorems": [
    "Verif.Checksum.C57_encoding",
    "Verif.Checksum.C57_text",
    "Verif.Checksum.C57_order",
    "Verif.Checksum.C57_cache",
    "Verif.Checksum.C57_detect_partial",
    "Verif.Checksum.C57_detect_refuted"
   ],
   "note": "C57_detect_partial is for commits that use the module cache and modules in CIL that have their file; with the cache ignored, changes of modules written in CIL go unnoticed (C57_detect_refuted). Options that are not part of the checksum (handle_unknown, expand_check, multiple_decls, optimize_policy) are outside of the claim."
  },
  {
   "property": "C35",
   "status": "partial",
   "theorems": [
    "Verif.Dbase.C35_history_partial",
    "Verif.Dbase.C35_refuted"
   ],
   "note": "Proved at the level of pointers for all histories in which memory does not run out while a record is replaced; without that the code uses freed memory (C35_refuted)."
  },
  {
   "property": "C38",
   "status": "partial",
   "theorems": [
    "Verif.Dbase.C38_release_partial",
    "Verif.Dbase.C38_refuted",
    "Verif.Dbase.C38_stuck"
   ],
   "note": "Proved for queries that can load their records; a query that cannot keeps the lock (C38_refuted), for good after the handle is connected again (C38_stuck)."
  },
  {
   "property": "C58",
   "status": "partial",
   "theorems": [
    "Verif.Dbase.C58_view_partial",
    "Verif.Dbase.C58_failed_commit_refuted",
    "Verif.Dbase.C58_lost_changes_refuted"
   ],
   "note": "Excluded: histories after a commit that failed outside of writing the databases, an unreadable commit number in a transaction, and memory exhaustion in a replacement; each exclusion is needed (refuted theorems). One file database; the policy-backed and joined ones are not modelled."
  },
  {
   "property": "C59",
   "status": "partial",
   "theorems": [
    "Verif.Dbase.C59_lock_partial",
    "Verif.Dbase.C59_refuted"
   ],
   "note": "Proved for histories in which the sandbox can be made; when it cannot, the lock stays (C59_refuted)."
  },
  {
   "property": "C39",
   "status": "partial",
   "theorems": [
    "Verif.FcSort.C39_sort_partial",
    "Verif.FcSort.C39_unique",
    "Verif.FcSort.C39_idempotent",
    "Verif.FcSort.C39_safe",
    "Verif.FcSort.C39_refuted",
    "Verif.FcSort.C39_last_line_refuted"
   ],
   "note": "On the bytes of the buffer: for every file of the grammar the output is the text of its entries sorted stably by specificity; idempotent; memory safe on every buffer without a backslash. Refuted for a path ending in a backslash (out-of-bounds read) and for a last line without a newline (dropped)."
  },
  {
   "property": "C36",
   "status": "partial",
   "theorems": [
    "Verif.Commit.C36_partial",
    "Verif.Commit.C36_installed",
    "Verif.Commit.C36_refuted",
    "Verif.Commit.C36_exdev_refuted",
    "Verif.Commit.C36_mixture",
    "Verif.Commit.C36_loss"
   ],
   "note": "Proved for every crash point and all failing calls that the active store is the complete old or new one, or absent with both complete next to it (directories renamed, not copied); installed files are whole in every case. The claim itself is refuted: between two renames there is no active store (C36_refuted), after which both stores can be lost (C36_loss); copied directories can be half-written (C36_exdev_refuted) or mixed (C36_mixture). Crash of the process, not of the machine."
  },
  {
   "property": "C37",
   "status": "partial",
   "theorems": [
    "Verif.Commit.C37_success",
    "Verif.Commit.C37_failure",
    "Verif.Commit.C37_partial",
    "Verif.Commit.C37_refuted",
    "Verif.Commit.C37_store_refuted"
   ],
   "note": "C37_failure classifies every outcome of a failed commit; the claim holds when the failure is not one of installing files, renaming or removing directories (C37_partial), else it is refuted."
  },
  {
   "property": "C60",
   "status": "partial",
   "theorems": [
    "Verif.FileLabel.C60_characters",
    "Verif.FileLabel.C60_partial",
    "Verif.FileLabel.C60_regular",
    "Verif.FileLabel.C60_determined",
    "Verif.FileLabel.C60_refuted",
    "Verif.FileLabel.C60_none_refuted",
    "Verif.FileLabel.C60_local_refuted"
   ],
   "note": "Hypotheses: an expression only matches below its fixed directories (Rooted; C60_regular derives this from the shape of the expressions and one law of the engine), no engine error, and a match with <<none>> has no fewer fixed directories than a later match. Each of the first and last is needed: C60_refuted, C60_none_refuted. Among specifications of the same path the earlier file can win (C60_local_refuted). Text files only; the compiled form is not modelled."
  },
  {
   "property": "C61",
   "status": "proved",
   "theorems": [
    "Verif.FileLabel.C61_spelling"
   ],
   "note": "For absolute paths; substitutions are covered."
  },
  {
   "property": "C62",
   "status": "proved",
   "theorems": [
    "Verif.FileLabel.C62_substitution",
    "Verif.FileLabel.C62_unique"
   ],
   "note": "For absolute paths."
  },
  {
   "property": "C63",
   "status": "partial",
   "theorems": [
    "Verif.FileLabel.C63_partial",
    "Verif.FileLabel.C63_refuted"
   ],
   "note": "Proved when the path itself matches or the longest fixed beginning is not empty; else a match is lost (C63_refuted)."
  },
  {
   "property": "C64",
   "status": "partial",
   "theorems": [
    "Verif.FileLabel.C64_partial",
    "Verif.FileLabel.C64_refuted"
   ],
   "note": "Only that a reported match exists; the converse is refuted."
  },
  {
   "property": "C65",
   "status": "partial",
   "theorems": [
    "Verif.FileLabel.C65_partial",
    "Verif.FileLabel.C65_determined",
    "Verif.FileLabel.C65_load",
    "Verif.FileLabel.C65_refuted"
   ],
   "note": "All lines except those of two words with white space after them, for which more variadic arguments are read than were passed (C65_refuted, for every such line)."
  },
  {
   "property": "C66",
   "status": "partial",
   "theorems": [
    "Verif.FileLabel.C66_partial",
    "Verif.FileLabel.C66_refuted",
    "Verif.FileLabel.C66_uninit_refuted"
   ],
   "note": "All files of lines shorter than 1022 bytes that end with a newline. A last line of one word without a newline is refuted: it gets the rest of the line before it or reads undefined bytes."
  },
  {
   "property": "C67",
   "status": "partial",
   "theorems": [
    "Verif.Bounds.C67_partial",
    "Verif.Bounds.C67_exact",
    "Verif.Bounds.C67_unconditional",
    "Verif.Bounds.C67_reports",
    "Verif.Bounds.C67_refuted",
    "Verif.Bounds.C67_exact_refuted"
   ],
   "note": "C67_partial: every accepted policy keeps each type within its bound under every value of the booleans, if the bounding type has no audit or type rule in a conditional (needed: C67_refuted) and conditions have values. C67_exact says exactly what the check compares; it is equivalent to the claim without conditionals (C67_unconditional) and stricter with them (C67_exact_refuted)."
  },
  {
   "property": "C68",
   "status": "proved",
   "theorems": [
    "Verif.Bounds.C68_decides",
    "Verif.Bounds.C68_unique"
   ],
   "note": "The check of the bounded types in C68_decides is the subject of C67."
  },
  {
   "property": "C69",
   "status": "partial",
   "theorems": [
    "Verif.Link.C69_partial",
    "Verif.Link.C69_classes",
    "Verif.Link.C69_order",
    "Verif.Link.C69_empty",
    "Verif.Link.C69_refuted",
    "Verif.Link.C69_report_refuted",
    "Verif.Link.C69_else_refuted"
   ],
   "note": "C69_partial is for policies in which the bodies that are not optional require only classes that such a body declares; without that an indeterminate value is read (C69_refuted) or a wrong symbol reported (C69_report_refuted); C69_classes covers all policies. The requirements of else branches are not looked at by the code (C69_else_refuted)."
  },
  {
   "property": "C70",
   "status": "partial",
   "theorems": [
    "Verif.Link.C70_partial",
    "Verif.Link.C70_refuted",
    "Verif.Link.C70_freed_refuted"
   ],
   "note": "Proved when no attribute is a member of itself through others; with cycles linking does not end (C70_refuted) or reads freed memory (C70_freed_refuted)."
  },
  {
   "property": "C71",
   "status": "proved",
   "theorems": [
    "Verif.CilSet.C71_meaning",
    "Verif.CilSet.C71_self_reference",
    "Verif.CilSet.C71_attributes",
    "Verif.CilSet.C71_category_sets",
    "Verif.CilSet.C71_expression",
    "Verif.CilSet.C71_reversed_range",
    "Verif.CilSet.C71_roletypes",
    "Verif.CilSet.C71_userroles",
    "Verif.CilSet.C71_all_refuted"
   ],
   "note": "Against a denotational meaning of expressions by recursion (Spec.lean), on the bitmap model of C01-C04. C71_all_refuted shows that the exception for (all) over nothing is real: it means the empty set but fails."
  },
  {
   "property": "C72",
   "status": "partial",
   "theorems": [
    "Verif.CilOrder.C72_sound",
    "Verif.CilOrder.C72_same",
    "Verif.CilOrder.C72_check",
    "Verif.CilOrder.C72_ends",
    "Verif.CilOrder.C72_extending_partial",
    "Verif.CilOrder.C72_order_refuted"
   ],
   "note": "All of the claim but the last sentence is proved for every collection of statements. The last sentence is proved for statements that each repeat part of the order so far or go on from its end (C72_extending_partial) and refuted in general: whether statements that leave one order are accepted depends on their order, even if one of them is the whole order (C72_order_refuted)."
  },
  {
   "property": "C73",
   "status": "partial",
   "theorems": [
    "Verif.CilCon.C73_lawful",
    "Verif.CilCon.C73_exact",
    "Verif.CilCon.C73_partial",
    "Verif.CilCon.C73_filecon",
    "Verif.CilCon.C73_ports",
    "Verif.CilCon.C73_nodes",
    "Verif.CilCon.C73_files",
    "Verif.CilCon.C73_categories_refuted",
    "Verif.CilCon.C73_genfs_refuted",
    "Verif.CilCon.C73_filecon_refuted"
   ],
   "note": "C73_exact says what is kept and rejected for all rules; it is the claim where contexts of rules for the same object do not differ in categories alone (C73_partial; needed: C73_categories_refuted). The kind of file of genfscon rules is ignored (C73_genfs_refuted). Filecon rules without a context are excluded for duplicates (C73_filecon; needed: C73_filecon_refuted)."
  },
  {
   "property": "C74",
   "status": "partial",
   "theorems": [
    "Verif.CilDeny.C74_deny_partial",
    "Verif.CilDeny.C74_name_refuted"
   ],
   "note": "Proved for all policies in which the names deny_rule_attr_N that are chosen for new attributes are not in use; if one is, memory is freed twice (C74_name_refuted)."
  },
  {
   "property": "C75",
   "status": "partial",
   "theorems": [
    "Verif.CilBin.C75_decisions_partial",
    "Verif.CilBin.C75_compiles",
    "Verif.CilBin.C75_loadable",
    "Verif.CilBin.C75_decisions_refuted"
   ],
   "note": "Proved for all policies with fewer than 65536 types and attributes, down to the decisions of context_struct_compute_av as modelled for C18; false with more, because keys of rules have 16 bits and CIL does not check the number (C75_decisions_refuted). Rules with extended permissions are not covered."
  },
  {
   "property": "C76",
   "status": "partial",
   "theorems": [
    "Verif.CilBin.C76_unconditional",
    "Verif.CilBin.C76_no_conflict",
    "Verif.CilBin.C76_branch_sound",
    "Verif.CilBin.C76_branch_partial",
    "Verif.CilBin.C76_branch_conflict_partial",
    "Verif.CilBin.C76_compiles",
    "Verif.CilBin.C76_conflict_refuted",
    "Verif.CilBin.C76_dropped_refuted"
   ],
   "note": "Proved for all policies with fewer than 65536 types and attributes, except that the contents of a branch are exact only where no conditional has rules for the types and class in both branches or only one conditional has rules for them, and contradictions between conditional rules are found only where no conditional has rules in both branches. Both exceptions are needed (C76_dropped_refuted, C76_conflict_refuted). Transitions with names are not covered."
  },
  {
   "property": "C77",
   "status": "partial",
   "theorems": [
    "Verif.CilX.C77_list",
    "Verif.CilX.C77_decisions_partial",
    "Verif.CilX.C77_compiles"
   ],
   "note": "Proved for all policies with fewer than 65536 types and attributes; with more, keys of rules are wrong as in C75 (C75_decisions_refuted). What a rule of the binary policy says is taken from the specification of C34. A hash table is a list that is visited in any order."
  },
  {
   "property": "C78",
   "status": "partial",
   "theorems": [
    "Verif.CilCond.C78_syntax",
    "Verif.CilCond.C78_tunableif",
    "Verif.CilCond.C78_accepts",
    "Verif.CilCond.C78_booleanif_partial",
    "Verif.CilCond.C78_single",
    "Verif.CilCond.C78_agree",
    "Verif.CilCond.C78_wrong_merge"
   ],
   "note": "Reading, tunables, the conditions of acceptance and a single booleanif are proved in full. Several booleanifs: proved if statements with the same booleans mention them in the same order; false otherwise, because cond_expr_equal compares tables whose rows are numbered differently (C78_wrong_merge)."
  },
  {
   "property": "C79",
   "status": "partial",
   "theorems": [
    "Verif.CilConstr.C79_accepts",
    "Verif.CilConstr.C79_constrain_partial",
    "Verif.CilConstr.C79_validatetrans_partial",
    "Verif.CilConstr.C79_succeeds",
    "Verif.CilConstr.C79_rejects",
    "Verif.CilConstr.C79_type_names",
    "Verif.CilConstr.C79_l1_refuted",
    "Verif.CilConstr.C79_dom_name_refuted",
    "Verif.CilConstr.C79_deep_refuted"
   ],
   "note": "Proved for all statements with documented expressions, down to the evaluator of constraints as modelled for C17. What is accepted is characterised exactly (C79_accepts); two forms that the documentation does not have are accepted and do not mean what they say (C79_l1_refuted, C79_dom_name_refuted). C79_validatetrans_partial shows that an expression of validatetrans that is too deep refuses every transition (C79_deep_refuted): its depth is not checked."
  },
  {
   "property": "C80",
   "status": "partial",
   "theorems": [
    "Verif.CilParse.C80_safe",
    "Verif.CilParse.C80_symbols",
    "Verif.CilParse.C80_parser_partial",
    "Verif.CilParse.C80_unambiguous_partial",
    "Verif.CilParse.C80_carriage_return_refuted",
    "Verif.CilParse.C80_line_marks_refuted"
   ],
   "note": "Safety is proved for all texts. That exactly the written statements are read is proved for all texts without carriage returns and line marks of high-level languages; both exclusions are needed: a quote in a comment that ends with a carriage return takes the following lines with it (C80_carriage_return_refuted), and line marks and parentheses may close each other (C80_line_marks_refuted)."
  },
  {
   "property": "C81",
   "status": "partial",
   "theorems": [
    "Verif.KernelCil.C81_conditional",
    "Verif.KernelCil.C81_conditional_only",
    "Verif.KernelCil.C81_constraint_partial",
    "Verif.KernelCil.C81_complement_refuted",
    "Verif.KernelCil.C81_no_names_refuted"
   ],
   "note": "Conditionals are proved in full. Constraints are proved if the names that are kept beside the compared set of types stand for it; where they do not (exclusions and complements in policies made from modules, which expand_module drops) the text means something else (C81_complement_refuted), and without any kept names it has a name that is not declared (C81_no_names_refuted)."
  },
  {
   "property": "C82",
   "status": "partial",
   "theorems": [
    "Verif.KernelCil.C82_level_sound",
    "Verif.KernelCil.C82_level_partial",
    "Verif.KernelCil.C82_range_sound",
    "Verif.KernelCil.C82_conf",
    "Verif.KernelCil.C82_range_conf",
    "Verif.KernelCil.C82_conf_reads",
    "Verif.KernelCil.C82_level_refuted",
    "Verif.KernelCil.C82_pair_refuted"
   ],
   "note": "Whatever is written means the level (C82_level_sound, C82_range_sound), and for the policy language everything is written (C82_conf) and read back by the reader of contexts (C82_conf_reads). For CIL, that something is written is proved if the name of the last category of a run is not longer than the one before it; otherwise the buffer is computed too small and the text is lost: s0:c0.c10 (C82_level_refuted) and s0:c9,c10 (C82_pair_refuted) are printed as a null pointer."
  },
  {
   "property": "C83",
   "status": "partial",
   "theorems": [
    "Verif.KernelCil.C83_number",
    "Verif.KernelCil.C83_rules_partial",
    "Verif.KernelCil.C83_says_partial",
    "Verif.KernelCil.C83_conditionals_partial",
    "Verif.KernelCil.C83_blocks",
    "Verif.KernelCil.C83_no_xperms_refuted",
    "Verif.KernelCil.C83_no_rules_refuted",
    "Verif.KernelCil.C83_bad_expression_refuted"
   ],
   "note": "Proved for all tables and conditionals whose rules have at least one permission or number and whose names are symbols. A rule without extended permissions passes validation and is written with unbalanced parentheses (C83_no_xperms_refuted); a conditional without rules is written in a form that CIL rejects (C83_no_rules_refuted); an expression that cannot be written silently drops all conditionals (C83_bad_expression_refuted)."
  },
  {
   "property": "C84",
   "status": "partial",
   "theorems": [
    "Verif.Validate.C84_accept",
    "Verif.Validate.C84_permission_names",
    "Verif.Validate.C84_rules_name_permissions",
    "Verif.Validate.C84_conditions",
    "Verif.Validate.C84_constraints",
    "Verif.Validate.C84_type_one",
    "Verif.Validate.C84_category_alias_refuted",
    "Verif.Validate.C84_range_order_refuted",
    "Verif.Validate.C84_stray_bits_refuted"
   ],
   "note": "C84_accept characterises acceptance exactly for kernel policies, by `Valid`. `Valid` is weaker than the full property in three places, where wrong policies are accepted: an alias of a category can have the number of no category (C84_category_alias_refuted), ranges need not be in order (C84_range_order_refuted), and access vectors may have bits that are no permissions (C84_stray_bits_refuted); and stronger in one: some type must have number one (C84_type_one). Policies of modules are not modelled."
  },
  {
   "property": "C85",
   "status": "proved",
   "theorems": [
    "Verif.Expand.C85_type_set",
    "Verif.Expand.C85_expanded",
    "Verif.Expand.C85_excluded_unchecked"
   ],
   "note": "Proved for all policies with at most 65535 types whose attributes consist of types, and all sets whose numbers are within the map of the module. C85_excluded_unchecked shows where type_set_expand itself relies on that: it does not check the numbers of excluded types."
  },
  {
   "property": "C86",
   "status": "partial",
   "theorems": [
    "Verif.Expand.C86_succeeds",
    "Verif.Expand.C86_only_conflicts",
    "Verif.Expand.C86_allow",
    "Verif.Expand.C86_auditallow",
    "Verif.Expand.C86_dontaudit",
    "Verif.Expand.C86_xperms",
    "Verif.Expand.C86_xperms_branch_partial",
    "Verif.Expand.C86_enabled",
    "Verif.Expand.C86_xperms_twice_refuted"
   ],
   "note": "Proved for all rules and conditionals, except for extended permissions in conditionals: there it is proved if no two conditionals are equal. Otherwise an entry of another driver can be overwritten, so that a permission is lost and another one is granted that no rule gives (C86_xperms_twice_refuted)."
  },
  {
   "property": "C87",
   "status": "partial",
   "theorems": [
    "Verif.Expand.C87_deterministic",
    "Verif.Expand.C87_from_rules",
    "Verif.Expand.C87_complete_partial",
    "Verif.Expand.C87_conflict_partial",
    "Verif.Expand.C87_duplicate_refuted",
    "Verif.Expand.C87_overwritten_refuted"
   ],
   "note": "That at most one type applies and that it comes from a rule is proved in full. That each rule has its effect is proved for rules with one class when no conditional comes twice; a rule with several classes of which one is a duplicate loses its other classes (C87_duplicate_refuted), and in a conditional that comes twice an earlier rule can be overwritten without a conflict (C87_overwritten_refuted)."
  },
  {
   "property": "C88",
   "status": "partial",
   "theorems": [
    "Verif.PolicyIO.C88_written_is_read",
    "Verif.PolicyIO.C88_no_rules_refuted",
    "Verif.PolicyIO.C88_long_name_refuted"
   ],
   "note": "Proved for all kernel policies of versions 26 to 34 for SELinux and Xen that meet `Fits`, which lists the room of the format. What is outside of `Fits` but can be written and is then refused by the reader includes a policy without unconditional rules (C88_no_rules_refuted) and names of file systems or interfaces of more than 63 bytes (C88_long_name_refuted). Policies of modules are not modelled."
  },
  {
   "property": "C89",
   "status": "proved",
   "theorems": [
    "Verif.PolicyIO.C89_read_accepted"
   ],
   "note": "Proved for all sequences of bytes that could be in memory together with what is read (the hypothesis on the length is that of C05), with validation as modelled for C84. From version 33 on also that a source has at most one new type for a name."
  },
  {
   "property": "C90",
   "status": "proved",
   "theorems": [
    "Verif.PolicyIO.C90_rest",
    "Verif.PolicyIO.C90_truncated"
   ],
   "note": "Proved for all bytes. What follows a policy matters only in that the check of the size of symbol tables compares with the number of bytes left."
  },
  {
   "property": "C91",
   "status": "partial",
   "theorems": [
    "Verif.FileTrans.C91_table_says",
    "Verif.FileTrans.C91_refused",
    "Verif.FileTrans.C91_contradiction_partial",
    "Verif.FileTrans.C91_contradiction_refuted",
    "Verif.FileTrans.C91_written"
   ],
   "note": "That the table says exactly what the rules say and that only contradictions are refused is proved in full. That contradictions are refused is proved for rules whose new type no earlier rule has for the same directories, class and name; otherwise a contradiction can be accepted, depending on the order of rules (C91_contradiction_refuted), and the policy is then refused when it is loaded or loses one of the rules (C91_written)."
  },
  {
   "property": "C92",
   "status": "partial",
   "theorems": [
    "Verif.Login.C92_byname",
    "Verif.Login.C92_entries",
    "Verif.Login.C92_service_partial",
    "Verif.Login.C92_colon_refuted"
   ],
   "note": "All of it for services without a colon; a service whose name has a colon is misread (C92_colon_refuted). Which groups a user is a member of is a parameter."
  },
  {
   "property": "C93",
   "status": "partial",
   "theorems": [
    "Verif.Login.C93_list",
    "Verif.Login.C93_exist",
    "Verif.Login.C93_malformed",
    "Verif.Login.C93_failsafe_partial",
    "Verif.Login.C93_failsafe_none",
    "Verif.Login.C93_failsafe_refuted",
    "Verif.Login.C93_failsafe_ub",
    "Verif.Login.C93_sound",
    "Verif.Login.C93_level",
    "Verif.Login.C93_level_bad",
    "Verif.Login.C93_default"
   ],
   "note": "Lists, levels, roles and defaults in full, for users without a colon; the context of last resort if the first line of its file has at most 253 bytes and no NUL, with witnesses that longer lines are cut and that a NUL leads to an access outside of the buffer. Answers of the kernel are a parameter."
  },
  {
   "property": "C94",
   "status": "partial",
   "theorems": [
    "Verif.Login.C94_type_partial",
    "Verif.Login.C94_no_file",
    "Verif.Login.C94_last_line_refuted",
    "Verif.Login.C94_long_line_refuted",
    "Verif.Login.C94_ub"
   ],
   "note": "For files whose lines have a newline, at most 248 bytes before it and no NUL, with witnesses for each of these."
  },
  {
   "property": "C95",
   "status": "partial",
   "theorems": [
    "Verif.LocalFile.C95_seusers_partial",
    "Verif.LocalFile.C95_booleans_partial",
    "Verif.LocalFile.C95_booleans_spelled_partial",
    "Verif.LocalFile.C95_fcontexts_partial",
    "Verif.LocalFile.C95_ports_partial",
    "Verif.LocalFile.C95_interfaces_partial",
    "Verif.LocalFile.C95_ibendports_partial",
    "Verif.LocalFile.C95_nodes_partial",
    "Verif.LocalFile.C95_ibpkeys_partial",
    "Verif.LocalFile.C95_users_partial",
    "Verif.LocalFile.C95_users_extra_partial",
    "Verif.LocalFile.C95_login_partial",
    "Verif.LocalFile.C95_range_refuted",
    "Verif.LocalFile.C95_comment_refuted",
    "Verif.LocalFile.C95_value_refuted",
    "Verif.LocalFile.C95_no_roles_refuted",
    "Verif.LocalFile.C95_level_refuted",
    "Verif.LocalFile.C95_blank_refuted"
   ],
   "note": "For records whose strings have no blanks, delimiters or comment signs where the format cannot hold them (the predicates Good), with witnesses that other records are not read back. How addresses are written and read is a parameter."
  },
  {
   "property": "C96",
   "status": "partial",
   "theorems": [
    "Verif.LocalFile.C96_safe_partial",
    "Verif.LocalFile.C96_null_refuted",
    "Verif.LocalFile.C96_terminates",
    "Verif.LocalFile.C96_comments"
   ],
   "note": "Termination and comments for all kinds of files. Safety for eight kinds; it is false for booleans and users (C96_null_refuted)."
  },
  {
   "property": "C97",
   "status": "partial",
   "theorems": [
    "Verif.Modules.C97_active",
    "Verif.Modules.C97_build",
    "Verif.Modules.C97_commit_partial",
    "Verif.Modules.C97_commit_failed",
    "Verif.Modules.C97_commit_refuted"
   ],
   "note": "In full for the texts of a build. The commit if an enabled module is left; otherwise it succeeds and does nothing (C97_commit_refuted). Compilers, the policy compiler and the order of directory names (OrdersPriorities, three digits) are parameters; files fail to be read or written in none of this."
  },
  {
   "property": "C98",
   "status": "partial",
   "theorems": [
    "Verif.Modules.C98_history",
    "Verif.Modules.C98_list",
    "Verif.Modules.C98_info",
    "Verif.Modules.C98_info_highest",
    "Verif.Modules.C98_enabled",
    "Verif.Modules.C98_fresh",
    "Verif.Modules.C98_extract_partial",
    "Verif.Modules.C98_extract_refuted",
    "Verif.Modules.C98_names",
    "Verif.Modules.C98_extensions",
    "Verif.Modules.C98_names_safe"
   ],
   "note": "In full but for the extraction of a module in CIL whose extension is not in small letters, which fails (C98_extract_refuted)."
  },
  {
   "property": "C99",
   "status": "partial",
   "theorems": [
    "Verif.Xperm.C99_ioctl_partial",
    "Verif.Xperm.C99_nlmsg_partial",
    "Verif.Xperm.C99_refused",
    "Verif.Xperm.C99_from_zero_refuted",
    "Verif.Xperm.C99_to_end_refuted",
    "Verif.Xperm.C99_nlmsg_refuted",
    "Verif.Xperm.C99_large_refuted"
   ],
   "note": "For numbers up to 0xffff; with ~ if 0xffff is not named and what is named is not just a range from 0 on; for netlink if no 256 numbers of a driver and the numbers on both sides are listed. Each of these is needed, as the refutations show."
  },
  {
   "property": "C100",
   "status": "partial",
   "theorems": [
    "Verif.ObjStmt.C100_accepted_partial",
    "Verif.ObjStmt.C100_port_partial",
    "Verif.ObjStmt.C100_ibpkey",
    "Verif.ObjStmt.C100_ibendport",
    "Verif.ObjStmt.C100_netif",
    "Verif.ObjStmt.C100_fs_partial",
    "Verif.ObjStmt.C100_node",
    "Verif.ObjStmt.C100_node6",
    "Verif.ObjStmt.C100_genfs",
    "Verif.ObjStmt.C100_fs_use",
    "Verif.ObjStmt.C100_longest_prefix",
    "Verif.ObjStmt.C100_longest_prefix6",
    "Verif.ObjStmt.C100_genfs_unique",
    "Verif.ObjStmt.C100_xen_partial",
    "Verif.ObjStmt.C100_fs_refuted",
    "Verif.ObjStmt.C100_port_refuted",
    "Verif.ObjStmt.C100_pirq_refuted",
    "Verif.ObjStmt.C100_genfs_refuted",
    "Verif.ObjStmt.C100_node_refuted"
   ],
   "note": "In full for all statements but fscon with numbers above 0xff, portcon and pirqcon with numbers above 65535: fscon then writes beyond its buffer, the others are cut to 16 bits. inet_pton and the parser of contexts are parameters."
  },
  {
   "property": "C101",
   "status": "partial",
   "theorems": [
    "Verif.LocalPol.C101_port_partial",
    "Verif.LocalPol.C101_ibpkey_partial",
    "Verif.LocalPol.C101_ibendport_partial",
    "Verif.LocalPol.C101_node",
    "Verif.LocalPol.C101_node6",
    "Verif.LocalPol.C101_netif",
    "Verif.LocalPol.C101_merge_iff",
    "Verif.LocalPol.C101_validate_ports",
    "Verif.LocalPol.C101_validate_ibpkeys",
    "Verif.LocalPol.C101_one_port_record",
    "Verif.LocalPol.C101_port_query",
    "Verif.LocalPol.C101_port_query_other",
    "Verif.LocalPol.C101_node_order",
    "Verif.LocalPol.C101_large_port_refuted",
    "Verif.LocalPol.C101_large_endport_refuted",
    "Verif.LocalPol.C101_port_twice_refuted",
    "Verif.LocalPol.C101_longest_prefix_refuted"
   ],
   "note": "In full for interfaces and addresses; for ports and keys if numbers have 16 bits and for Infiniband ports 8 bits and names of at most 63 bytes: larger ones are cut (C101_large_port_refuted). The records and the contexts in them are parameters."
  },
  {
   "property": "C102",
   "status": "partial",
   "theorems": [
    "Verif.LocalPol.C102_accept_iff",
    "Verif.LocalPol.C102_user",
    "Verif.LocalPol.C102_users",
    "Verif.LocalPol.C102_roles_partial",
    "Verif.LocalPol.C102_roles_refuted",
    "Verif.LocalPol.C102_refused_partial",
    "Verif.LocalPol.C102_refused_refuted",
    "Verif.LocalPol.C102_bools",
    "Verif.LocalPol.C102_bools_fail"
   ],
   "note": "In full but for users that are in the policy already: a refused record takes their roles away, and an accepted one leaves them without roles for context_is_valid until the policy is read again. mls_from_string and the evaluation of conditionals (C13) are parameters."
  },
  {
   "property": "C103",
   "status": "partial",
   "theorems": [
    "Verif.Restore.C103_label",
    "Verif.Restore.C103_reached",
    "Verif.Restore.C103_trouble",
    "Verif.Restore.C103_some_name",
    "Verif.Restore.C103_nochange",
    "Verif.Restore.C103_messages",
    "Verif.Restore.C103_idempotent",
    "Verif.Restore.C103_dry_run",
    "Verif.Restore.C103_digests",
    "Verif.Restore.C103_excluded_partial",
    "Verif.Restore.C103_single",
    "Verif.Restore.C103_excluded_file_refuted",
    "Verif.Restore.C103_alt_root_refuted",
    "Verif.Restore.C103_two_devices_refuted",
    "Verif.Restore.C103_unreadable_refuted",
    "Verif.Restore.C103_digest_excluded_refuted",
    "Verif.Restore.C103_bad_label_refuted"
   ],
   "note": "For trees without cycles, paths of less than 4096 bytes, labels with a type, calls that do not end at the first error, and with the table of inodes if other contexts of other names are no error. C103_nochange holds without these. What the code does otherwise is in the refutations."
  },
  {
   "property": "C104",
   "status": "partial",
   "theorems": [
    "Verif.Restore.C104_add",
    "Verif.Restore.C104_list_partial",
    "Verif.Restore.C104_mounts",
    "Verif.Restore.C104_missing_refuted",
    "Verif.Restore.C104_root_refuted"
   ],
   "note": "In full for single directories and mounts; for lists if all directories are there: after one that is missing the rest of the list is dropped. The root directory excludes only itself."
  },
  {
   "property": "C105",
   "status": "partial",
   "theorems": [
    "Verif.Restore.C105_parallel_partial",
    "Verif.Restore.C105_same_partial",
    "Verif.Restore.C105_links_refuted"
   ],
   "note": "For labels and failures, without the table of inodes (with it the result depends on the schedule, C105_links_refuted), without digests and without the flag that ends at the first error."
  },
  {
   "property": "C106",
   "status": "partial",
   "theorems": [
    "Verif.Client.C106_get_partial",
    "Verif.Client.C106_get_translated_partial",
    "Verif.Client.C106_set_partial",
    "Verif.Client.C106_set_translated_partial",
    "Verif.Client.C106_pid",
    "Verif.Client.C106_canonical_refuted",
    "Verif.Client.C106_empty_refuted",
    "Verif.Client.C106_direct_refuted",
    "Verif.Client.C106_reload_refuted"
   ],
   "note": "For histories in which attributes change only through the library, to contexts the kernel stores as they are written. Without that it is refuted: for contexts the kernel writes in another way, the empty string, changes by other means, policies loaded meanwhile."
  },
  {
   "property": "C107",
   "status": "partial",
   "theorems": [
    "Verif.Client.C107_answer",
    "Verif.Client.C107_constant_partial",
    "Verif.Client.C107_no_daemon",
    "Verif.Client.C107_current",
    "Verif.Client.C107_null",
    "Verif.Client.C107_failed_once_refuted",
    "Verif.Client.C107_late_refuted",
    "Verif.Client.C107_colour_refuted"
   ],
   "note": "In full while the daemon stays the same; for any changes each answer is one that a daemon there was gave (C107_answer), and asking for another string first gives the present answer (C107_current). A failure is kept like an answer, and a daemon started later is not seen."
  },
  {
   "property": "C108",
   "status": "partial",
   "theorems": [
    "Verif.Client.C108_success",
    "Verif.Client.C108_complete",
    "Verif.Client.C108_failure_partial",
    "Verif.Client.C108_active",
    "Verif.Client.C108_get",
    "Verif.Client.C108_set",
    "Verif.Client.C108_permanent_refuted",
    "Verif.Client.C108_commit_refuted",
    "Verif.Client.C108_pending_refuted",
    "Verif.Client.C108_unreadable_refuted"
   ],
   "note": "Success in full; failure for states without pending values, if the commit does not fail, the flag is not set and what can be written can be read. Otherwise refuted. Active values never change on failure without the flag (C108_active)."
  },
  {
   "property": "C109",
   "status": "partial",
   "theorems": [
    "Verif.Client.C109_sub_partial",
    "Verif.Client.C109_no_file",
    "Verif.Client.C109_stale_refuted",
    "Verif.Client.C109_unwritten_refuted"
   ],
   "note": "For files whose last line ends in a newline and without NUL bytes; without the newline stale or unwritten memory is used (refuted)."
  },
  {
   "property": "C110",
   "status": "partial",
   "theorems": [
    "Verif.CompFc.C110_compiles",
    "Verif.CompFc.C110_partial",
    "Verif.CompFc.C110_lookup_partial",
    "Verif.CompFc.C110_refuted"
   ],
   "note": "Compiling in full. Loading for trees in which the literals of each node take 16 bytes each on average, but for 8 bytes; otherwise the reader can refuse the file (C110_refuted). One file, without a validating callback that changes contexts, loaded into an empty handle."
  },
  {
   "property": "C111",
   "status": "partial",
   "theorems": [
    "Verif.CompFc.C111_partial",
    "Verif.CompFc.C111_refuted"
   ],
   "note": "Nothing outside is read by the code of libselinux; PCRE is given an address without the number of bytes left, and a forged file makes it read past the end (C111_refuted)."
  },
  {
   "property": "C112",
   "status": "proved",
   "theorems": [
    "Verif.CompFc.C112_tree",
    "Verif.CompFc.C112_head"
   ],
   "note": "For a handle that is empty."
  },
  {
   "property": "C113",
   "status": "partial",
   "theorems": [
    "Verif.CompFc.C113_opens",
    "Verif.CompFc.C113_refuses",
    "Verif.CompFc.C113_partial",
    "Verif.CompFc.C113_agree_partial"
   ],
   "note": "Opening in full (and nothing is opened if a file cannot be loaded), for compiled files that can be loaded (C110) and handles that do not validate contexts. Lookups under the hypotheses of C60: the engine does not fail, matches lie in the fixed directories of an expression, and no older <<none>> in a deeper directory hides a match (refuted otherwise, see C60). That it does not matter which files are compiled is proved unless two lines name the same path for the same kind of file."
  },
  {
   "property": "C114",
   "status": "partial",
   "theorems": [
    "Verif.FcCmp.C114_equal_subset",
    "Verif.FcCmp.C114_superset_partial",
    "Verif.FcCmp.C114_refl",
    "Verif.FcCmp.C114_contexts_refuted",
    "Verif.FcCmp.C114_order_refuted",
    "Verif.FcCmp.C114_superset_refuted"
   ],
   "note": "Specifications are the regular expression or path and the kind of file; expressions in the same directory in the same order. Equal and subset in full, superset unless the first handle has an expression twice (C114_superset_refuted). That equal handles give the same contexts is refuted: contexts and the order of expressions in different directories are not compared. For handles loaded from text without prefix or substitutions."
  },
  {
   "property": "C115",
   "status": "proved",
   "theorems": [
    "Verif.LabelObj.C115_media",
    "Verif.LabelObj.C115_x",
    "Verif.LabelObj.C115_db"
   ],
   "note": "For files of at most UINT_MAX / sizeof(spec_t) lines (media, X) and fewer than 2^31 lines (databases)."
  },
  {
   "property": "C116",
   "status": "partial",
   "theorems": [
    "Verif.LabelObj.C116_partial",
    "Verif.LabelObj.C116_newline_refuted",
    "Verif.LabelObj.C116_nul_refuted",
    "Verif.LabelObj.C116_long_refuted"
   ],
   "note": "For files whose lines all end in a newline, are shorter than 4095 bytes and have no zero bytes; each of these is needed (refuted)."
  },
  {
   "property": "C117",
   "status": "partial",
   "theorems": [
    "Verif.UserJoin.C117_join_partial",
    "Verif.UserJoin.C117_written",
    "Verif.UserJoin.C117_consistent",
    "Verif.UserJoin.C117_named",
    "Verif.UserJoin.C117_unmodified",
    "Verif.UserJoin.C117_twice_refuted"
   ],
   "note": "Reading for files in which no name is there twice (refuted otherwise); writing and reading back in full. The linked lists are C35, the files C95."
  },
  {
   "property": "C118",
   "status": "partial",
   "theorems": [
    "Verif.Config.C118_mode_partial",
    "Verif.Config.C118_type",
    "Verif.Config.C118_one_type",
    "Verif.Config.C118_no_file",
    "Verif.Config.C118_require_partial",
    "Verif.Config.C118_long_refuted",
    "Verif.Config.C118_spaces_refuted",
    "Verif.Config.C118_require_refuted"
   ],
   "note": "The type and root in full; the mode for lines that fit into a page (refuted otherwise). White space before the equals sign, as in the manual page, is refuted. REQUIRESEUSERS for the values 0 and 1; true and false are read the other way round (refuted)."
  },
  {
   "property": "C119",
   "status": "partial",
   "theorems": [
    "Verif.HomeDirs.C119_replace",
    "Verif.HomeDirs.C119_home_partial",
    "Verif.HomeDirs.C119_fallback_partial",
    "Verif.HomeDirs.C119_root",
    "Verif.HomeDirs.C119_user_partial",
    "Verif.HomeDirs.C119_name_partial",
    "Verif.HomeDirs.C119_only",
    "Verif.HomeDirs.C119_valid",
    "Verif.HomeDirs.C119_nouser_refuted",
    "Verif.HomeDirs.C119_context_refuted",
    "Verif.HomeDirs.C119_order_refuted",
    "Verif.HomeDirs.C119_both_refuted"
   ],
   "note": "Replacing in full. Lines for users and homes if the context is not also in the path (refuted otherwise) and has no white space after it, and lines for homes only if some line of the template is for users (refuted otherwise). The placeholders are replaced one after the other (C119_order_refuted). The lists of users and directories and the contexts of libsepol are parameters."
  },
  {
   "property": "C120",
   "status": "partial",
   "theorems": [
    "Verif.CreateName.C120_request",
    "Verif.CreateName.C120_noname",
    "Verif.CreateName.C120_different_partial",
    "Verif.CreateName.C120_spaces_refuted"
   ],
   "note": "The request, its errors and what the kernel reads as the name in full; that different requests are different texts for contexts without spaces (refuted otherwise)."
  },
  {
   "property": "C121",
   "status": "partial",
   "theorems": [
    "Verif.ComputeUser.C121_contexts",
    "Verif.ComputeUser.C121_nonumber",
    "Verif.ComputeUser.C121_memory_partial",
    "Verif.ComputeUser.C121_count_refuted",
    "Verif.ComputeUser.C121_wrap_refuted"
   ],
   "note": "The contexts in full for answers that fit into a page. That no other memory is used is refuted for answers with a wrong number of contexts; the theorem says for which answers it holds, if they start with a number as the kernel writes it."
  },
  {
   "property": "C122",
   "status": "partial",
   "theorems": [
    "Verif.TypeList.C122_securetty",
    "Verif.TypeList.C122_nocontext",
    "Verif.TypeList.C122_customizable_partial",
    "Verif.TypeList.C122_newline_refuted",
    "Verif.TypeList.C122_zero_refuted",
    "Verif.TypeList.C122_space_refuted"
   ],
   "note": "Secure terminals in full, for files without zero bytes. Customizable types if all lines end in a newline, fit into a page and have no zero bytes; the newline and the zero bytes are needed (refuted)."
  },
  {
   "property": "C123",
   "status": "proved",
   "theorems": [
    "Verif.ComputeAv.C123_decision",
    "Verif.ComputeAv.C123_noflags",
    "Verif.ComputeAv.C123_short"
   ],
   "note": "For answers that fit into a page; before the permissions are translated (C33)."
  }
 ]
}