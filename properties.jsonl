{"id": "C01", "title": "Extensible bitmaps are finite sets under point updates", "statement": "After any sequence of ebitmap_init/ebitmap_set_bit(bit,value)/ebitmap_init_range calls, ebitmap_get_bit(bit) returns exactly the value last successfully written to that bit (0 if never written); a rejected ebitmap_set_bit leaves every bit unchanged, and the only rejected writes are setting bits in the last 64-bit word of the 32-bit range.", "quantifier": "all sequences of point updates, of any length, over all 2^32 bit numbers", "why_tests_cant": "the node list splits, coalesces and unlinks depending on history; tests sample only a few histories and word boundaries", "anchors": ["libsepol/src/ebitmap.c:ebitmap_set_bit", "libsepol/src/ebitmap.c:ebitmap_get_bit", "libsepol/src/ebitmap.c:ebitmap_init_range", "libsepol/include/sepol/policydb/ebitmap.h"]}
{"id": "C02", "title": "Bitmap set algebra is exact", "statement": "ebitmap_or/ebitmap_union/ebitmap_and/ebitmap_xor/ebitmap_andnot/ebitmap_not compute, bit for bit, union, intersection, symmetric difference, difference and complement below maxbit of their inputs, return well-formed bitmaps, and terminate.", "quantifier": "all pairs of well-formed bitmaps and all maxbit values", "why_tests_cant": "word-merge loops over two sparse lists with unbounded length; boundary interactions grow without bound", "anchors": ["libsepol/src/ebitmap.c:ebitmap_or", "libsepol/src/ebitmap.c:ebitmap_union", "libsepol/src/ebitmap.c:ebitmap_and", "libsepol/src/ebitmap.c:ebitmap_xor", "libsepol/src/ebitmap.c:ebitmap_not", "libsepol/src/ebitmap.c:ebitmap_andnot"]}
{"id": "C03", "title": "Bitmap relations agree with set relations", "statement": "ebitmap_cmp returns 1 exactly when both bitmaps contain the same bits, ebitmap_contains(e1,e2) exactly when every bit of e2 is in e1, ebitmap_match_any exactly when they share a bit; ebitmap_cardinality counts the set bits, ebitmap_hamming_distance counts the differing bits and ebitmap_highest_set_bit returns the maximum.", "quantifier": "all pairs of well-formed bitmaps", "why_tests_cant": "needs canonicity of the representation for every reachable bitmap; a single unreduced node would break cmp", "anchors": ["libsepol/src/ebitmap.c:ebitmap_cmp", "libsepol/src/ebitmap.c:ebitmap_contains", "libsepol/src/ebitmap.c:ebitmap_match_any", "libsepol/src/ebitmap.c:ebitmap_cardinality", "libsepol/src/ebitmap.c:ebitmap_hamming_distance", "libsepol/src/ebitmap.c:ebitmap_highest_set_bit"]}
{"id": "C04", "title": "Bitmap iteration visits each member once, in order", "statement": "The ebitmap_for_each_bit / ebitmap_for_each_positive_bit macros visit, in strictly increasing order and exactly once, all bits of the domain resp. precisely the set bits.", "quantifier": "all well-formed bitmaps", "why_tests_cant": "termination and exactness over unbounded sparse lists", "anchors": ["libsepol/include/sepol/policydb/ebitmap.h:ebitmap_for_each_bit", "libsepol/include/sepol/policydb/ebitmap.h:ebitmap_next"]}
{"id": "C05", "title": "Bitmap deserialisation accepts only canonical bitmaps and inverts serialisation", "statement": "For every byte string, ebitmap_read either fails or yields a well-formed (canonical) bitmap; writing any well-formed bitmap and reading it back yields a bitmap with the same bits, consuming exactly the bytes written.", "quantifier": "all byte strings; all well-formed bitmaps", "why_tests_cant": "adversarial input space is infinite; fuzzing cannot show the absence of an accepted non-canonical encoding", "anchors": ["libsepol/src/ebitmap.c:ebitmap_read", "libsepol/src/write.c:ebitmap_write"]}
{"id": "C06", "title": "Access-vector table behaves as a keyed map", "statement": "After any sequence of avtab_insert calls, avtab_search(key) finds a rule exactly when one with that source, target, class and an overlapping rule kind was accepted, and for a single kind returns the datum of the most recently accepted one; inserting a non-xperm rule whose key is already present fails with EEXIST and changes nothing.", "quantifier": "all insertion histories, all keys, all table sizes", "why_tests_cant": "hash collisions and sorted-chain early exits depend on the whole history", "anchors": ["libsepol/src/avtab.c:avtab_insert", "libsepol/src/avtab.c:avtab_search", "libsepol/src/avtab.c:avtab_hash"]}
{"id": "C07", "title": "All rules with a given key are enumerated", "statement": "avtab_search_node followed by repeated avtab_search_node_next returns exactly the stored rules matching source/target/class and kind mask, each exactly once, whatever mixture of avtab_insert and avtab_insert_nonunique built the table.", "quantifier": "all insertion histories, all keys and kind masks", "why_tests_cant": "enumeration relies on an ordering invariant of every chain", "anchors": ["libsepol/src/avtab.c:avtab_search_node", "libsepol/src/avtab.c:avtab_search_node_next", "libsepol/src/avtab.c:avtab_insert_nonunique"]}
{"id": "C08", "title": "MLS dominance is a partial order", "statement": "mls_level_dom is reflexive, transitive and antisymmetric with respect to mls_level_eq; mls_level_incomp holds exactly when neither level dominates; mls_level_between is containment; mls_range_contains is reflexive and transitive.", "quantifier": "all levels and ranges with well-formed category bitmaps", "why_tests_cant": "algebraic laws over infinite domains", "anchors": ["libsepol/include/sepol/policydb/mls_types.h:mls_level_dom", "libsepol/include/sepol/policydb/mls_types.h:mls_level_eq", "libsepol/include/sepol/policydb/mls_types.h:mls_level_incomp", "libsepol/include/sepol/policydb/mls_types.h:mls_level_between", "libsepol/include/sepol/policydb/mls_types.h:mls_range_contains"]}
{"id": "C09", "title": "A security context is accepted only if user, role, type and range are mutually authorised", "statement": "policydb_context_isvalid/mls_context_isvalid return 1 exactly for contexts whose ids exist, whose type is authorised for the role (or role is object_r), whose role is authorised for the user, whose high level dominates the low level, whose levels use existing sensitivities and categories allowed for the sensitivity, and whose range lies inside the user's authorised range.", "quantifier": "all policies and all contexts", "why_tests_cant": "conjunction of bitmap facts over arbitrary policies", "anchors": ["libsepol/src/context.c:policydb_context_isvalid", "libsepol/src/mls.c:mls_context_isvalid"]}
{"id": "C10", "title": "MLS range text round trip", "statement": "Formatting the range of any valid context with mls_sid_to_context and parsing the text with mls_context_to_sid gives back the same levels, for every category set (runs are printed as first.last).", "quantifier": "all policies with delimiter-free names, all ranges", "why_tests_cant": "category run compression depends on arbitrary set shapes", "anchors": ["libsepol/src/mls.c:mls_sid_to_context", "libsepol/src/mls.c:mls_context_to_sid"]}
{"id": "C11", "title": "Security context text round trip", "statement": "context_to_string of a valid context followed by context_from_string yields the same context; context_from_string never returns a context that policydb_context_isvalid rejects.", "quantifier": "all policies, all valid contexts, all strings", "why_tests_cant": "string splitting over arbitrary text", "anchors": ["libsepol/src/context.c:context_to_string", "libsepol/src/context.c:context_from_string", "libsepol/src/context_record.c:sepol_context_from_string"]}
{"id": "C12", "title": "Conditional expressions mean what they say", "statement": "cond_evaluate_expr on the postfix form of any boolean expression that fits the 10-deep stack returns its value under the current booleans; on malformed postfix it returns the undefined value -1 rather than a truth value.", "quantifier": "all expressions, all boolean assignments", "why_tests_cant": "unbounded expression trees", "anchors": ["libsepol/src/conditional.c:cond_evaluate_expr"]}
{"id": "C13", "title": "Boolean changes enable exactly the right conditional rules", "statement": "After any sequence of boolean assignments each followed by evaluate_conds, every rule in a conditional's true (false) list is enabled exactly when its expression currently evaluates to true (false).", "quantifier": "all policies and all histories of boolean changes", "why_tests_cant": "the code only updates rules on state changes, so correctness is an invariant over histories", "anchors": ["libsepol/src/conditional.c:evaluate_conds", "libsepol/src/conditional.c:evaluate_cond_node"]}
{"id": "C14", "title": "Conditional normalisation preserves meaning", "statement": "cond_normalize_expr leaves the policy's boolean values untouched, and the rules selected by the normalised conditional equal those selected by the original under every assignment; the precomputed table agrees with evaluation.", "quantifier": "all conditional expressions, all assignments", "why_tests_cant": "quantifies over every expression and assignment", "anchors": ["libsepol/src/conditional.c:cond_normalize_expr"]}
{"id": "C15", "title": "Conditionals are merged only if equivalent", "statement": "cond_expr_equal(a,b) returns true only if a and b evaluate to the same value under every assignment of the booleans.", "quantifier": "all pairs of normalised conditional expressions and all assignments", "why_tests_cant": "a counterexample may need a particular order of booleans", "anchors": ["libsepol/src/conditional.c:cond_expr_equal", "libsepol/src/conditional.c:cond_node_find", "checkpolicy/module_compiler.c:get_current_cond_list"]}
{"id": "C16", "title": "Access decisions follow the policy", "statement": "The allowed vector computed for (source,target,class) contains a permission exactly when some enabled type-enforcement rule grants it to types covering source and target, every constraint covering it is satisfied, a role change is authorised by a role allow rule where required, and the source's bounding type does not forbid it.", "quantifier": "all policies, contexts, classes, boolean states", "why_tests_cant": "combines four independent sub-systems over arbitrary policies", "anchors": ["libsepol/src/services.c:context_struct_compute_av", "libsepol/src/conditional.c:cond_compute_av", "libsepol/src/services.c:type_attribute_bounds_av"]}
{"id": "C17", "title": "Constraint expressions are evaluated faithfully", "statement": "For every well-formed constraint (postfix of an expression tree within the stack bound) the evaluator returns the truth value of the expression over the two contexts.", "quantifier": "all constraint trees, all contexts", "why_tests_cant": "unbounded trees", "anchors": ["libsepol/src/services.c:constraint_expr_eval_reason"]}
{"id": "C18", "title": "Malformed constraints never grant access", "statement": "If a constraint's postfix program is malformed or evaluation fails, the permissions it covers are not granted.", "quantifier": "all postfix programs", "why_tests_cant": "arbitrary corrupted policies; error codes mixed with truth values", "anchors": ["libsepol/src/services.c:constraint_expr_eval_reason", "libsepol/src/services.c:context_struct_compute_av", "libsepol/src/services.c:sepol_validate_transition_reason_buffer"]}
{"id": "C19", "title": "Labelling decisions follow the transition rules", "statement": "The context computed for a new subject or object takes user/role/type/range from the documented defaults, overridden by matching type_transition/change/member, role_transition and range_transition rules with documented precedence, and is a valid context whenever the call succeeds in a policy where invalid transitions are rejected.", "quantifier": "all policies, context pairs and classes", "why_tests_cant": "case analysis over arbitrary rule sets", "anchors": ["libsepol/src/services.c:sepol_compute_sid", "libsepol/src/mls.c:mls_compute_sid"]}
{"id": "C20", "title": "SIDs are stable names of contexts", "statement": "In any history of context-to-SID conversions, equal contexts get the same SID, different contexts different SIDs, a SID once issued maps to the same context for the lifetime of the table, and unknown SIDs resolve to the unlabeled context.", "quantifier": "all histories of conversions and lookups", "why_tests_cant": "collision handling and caching depend on history", "anchors": ["libsepol/src/sidtab.c:sepol_sidtab_context_to_sid", "libsepol/src/sidtab.c:sepol_sidtab_search"]}
{"id": "C21", "title": "A failed policy load leaves the active policy usable", "statement": "If sepol_load_policy fails, subsequent decisions are the same as before the call.", "quantifier": "all policy images, all states", "why_tests_cant": "failure point can be anywhere in the image", "anchors": ["libsepol/src/services.c:sepol_load_policy"]}
{"id": "C22", "title": "Policy optimisation preserves every access decision", "statement": "policydb_optimize changes no allowed, auditallow, dontaudit or extended-permission decision, and no type transition, member or change rule, for any pair of types, class, permission and assignment of booleans, as long as the type map lists for every type only itself and attributes.", "quantifier": "all policies with well-formed rule tables whose type map lists only the type and attributes, all boolean assignments", "why_tests_cant": "decision equivalence over all assignments and type pairs", "anchors": ["libsepol/src/optimize.c:policydb_optimize", "libsepol/src/optimize.c:is_avrule_redundant"]}
{"id": "C23", "title": "Neverallow checking is sound and complete", "statement": "check_assertions reports a violation exactly when some enabled-or-conditional allow rule grants a permission named in a neverallow rule to a source and target type the rule names (including self and notself forms).", "quantifier": "all policies and neverallow rules", "why_tests_cant": "attribute expansion over arbitrary policies", "anchors": ["libsepol/src/assertion.c:check_assertions", "libsepol/src/assertion.c:check_assertion", "libsepol/src/assertion.c:report_assertion_failures"]}
{"id": "C24", "title": "Symbol tables are maps across resizing", "statement": "After any sequence of hashtab_insert/remove/insertions triggering growth, hashtab_search(k) returns the datum most recently bound to k, duplicates are rejected without effect, nel counts the bindings, and hashtab_map visits each binding exactly once.", "quantifier": "all operation histories, all hash functions and comparison orders", "why_tests_cant": "resizing rehashes everything at history-dependent points", "anchors": ["libsepol/src/hashtab.c:hashtab_insert", "libsepol/src/hashtab.c:hashtab_remove", "libsepol/src/hashtab.c:hashtab_search", "libsepol/src/hashtab.c:hashtab_check_resize"]}
{"id": "C25", "title": "Network and filesystem objects get the first matching label", "statement": "sepol_port_sid, sepol_node_sid, sepol_genfs_sid, sepol_fs_sid, sepol_netif_sid, ibpkey/ibendport lookups return the label of the first matching entry in policy order and the initial SID default otherwise; for genfs (sorted longest-first at load) this is the longest matching path prefix.", "quantifier": "all policies and all queries", "why_tests_cant": "arbitrary overlapping entries", "anchors": ["libsepol/src/services.c:sepol_port_sid", "libsepol/src/services.c:sepol_node_sid", "libsepol/src/services.c:sepol_genfs_sid", "libsepol/src/policydb.c:genfs_read"]}
{"id": "C26", "title": "The userspace AVC never grants what the server denied (enforcing)", "statement": "In enforcing mode, for every history of queries, notifications and resets, avc_has_perm_noaudit returns success only if the security server's decision for that pair (current at the last flush) allows every requested permission, and failure otherwise.", "quantifier": "all histories of cache operations, including evictions, reused entry references and policy reloads", "why_tests_cant": "cache state depends on the whole history; hash collisions and recycled nodes", "anchors": ["libselinux/src/avc.c:avc_has_perm_noaudit", "libselinux/src/avc.c:avc_insert", "libselinux/src/avc.c:avc_lookup", "libselinux/src/avc.c:avc_reclaim_node"]}
{"id": "C27", "title": "Permissive grants do not survive a switch to enforcing", "statement": "Permissions granted only because the system was permissive are never reported as allowed by a lookup after the switch back to enforcing.", "quantifier": "all histories interleaving mode switches with queries", "why_tests_cant": "needs an invariant over histories", "anchors": ["libselinux/src/avc.c:avc_has_perm_noaudit", "libselinux/src/avc_internal.c:avc_process_setenforce", "libselinux/src/avc.c:avc_ss_reset"]}
{"id": "C28", "title": "Decisions older than a policy change are not cached", "statement": "After a reset/notification with sequence number n, no decision with a smaller sequence number is inserted, and all cache entries present carry a sequence number accepted since the last flush; revocation removes exactly the named permissions from the matching entries.", "quantifier": "all notification histories", "why_tests_cant": "history dependent", "anchors": ["libselinux/src/avc.c:avc_insert", "libselinux/src/avc.c:avc_ss_reset", "libselinux/src/avc.c:avc_control", "libselinux/src/avc.c:avc_update_cache"]}
{"id": "C29", "title": "The AVC respects its capacity and counts its entries", "statement": "The number of cached entries never exceeds AVC_CACHE_MAXNODES, and active_nodes always equals the number of linked entries.", "quantifier": "all histories", "why_tests_cant": "history dependent counter", "anchors": ["libselinux/src/avc.c:avc_claim_node", "libselinux/src/avc.c:avc_reclaim_node", "libselinux/src/avc.c:avc_reset"]}
{"id": "C30", "title": "Status page reads are consistent snapshots", "statement": "The enforcing and policyload values returned by selinux_status_updated/getenforce/policyload/deny_unknown are values published together at one instant, never a mixture of two kernel updates, under every interleaving of reader and writer.", "quantifier": "all interleavings of kernel writer steps and reader steps", "why_tests_cant": "schedules are unbounded", "anchors": ["libselinux/src/sestatus.c:selinux_status_updated", "libselinux/src/sestatus.c:selinux_status_getenforce", "libselinux/src/sestatus.c:read_sequence"]}
{"id": "C31", "title": "Userspace SID table is a bijection with reference semantics", "statement": "avc_context_to_sid returns the same SID for equal contexts and distinct SIDs for different ones; avc_sid_to_context inverts it, for any history.", "quantifier": "all histories", "why_tests_cant": "history dependent, hash collisions", "anchors": ["libselinux/src/avc_sidtab.c:sidtab_context_to_sid", "libselinux/src/avc_sidtab.c:sidtab_insert"]}
{"id": "C32", "title": "context_new/context_str round trip and component access", "statement": "For every string accepted by context_new, context_str gives back that string; the getters return the colon-separated components, and a successful setter changes only its component; rejected setters change nothing.", "quantifier": "all strings", "why_tests_cant": "infinite string domain", "anchors": ["libselinux/src/context.c:context_new", "libselinux/src/context.c:context_str", "libselinux/src/context.c:set_comp"]}
{"id": "C33", "title": "Class/permission mapping is faithful", "statement": "With a mapping installed, translating a kernel access decision to the application's numbering and checking an application permission gives the same answer as translating the permission to the kernel numbering and checking there; permissions unknown to the policy are granted iff the policy allows unknown; permissions beyond the mapping are never granted.", "quantifier": "all mappings, all decisions, all permission vectors", "why_tests_cant": "2^32 vectors times arbitrary mappings", "anchors": ["libselinux/src/mapping.c:map_decision", "libselinux/src/mapping.c:unmap_perm", "libselinux/src/mapping.c:map_perm", "libselinux/src/mapping.c:unmap_class"]}
{"id": "C34", "title": "Incremental SHA-1 equals one-shot SHA-1", "statement": "For every way of splitting a message into Sha1Update calls, the digest equals FIPS 180-4 SHA-1 of the whole message.", "quantifier": "all messages and all splits", "why_tests_cant": "infinite domain", "anchors": ["libselinux/src/sha1.c:Sha1Update", "libselinux/src/sha1.c:Sha1Finalise"]}
{"id": "C35", "title": "Local customisation databases behave as ordered maps", "statement": "For any history of add/modify/set/del/clear through the dbase_llist API, exists/query/count/list/iterate agree with an abstract list of records: modify inserts or replaces, operations with a key act on the most recently added match, list and iterate return insertion order, count is the length; the doubly linked list stays consistent.", "quantifier": "all operation histories and record types", "why_tests_cant": "pointer-structure invariant over histories", "anchors": ["libsemanage/src/database_llist.c:dbase_llist_modify", "libsemanage/src/database_llist.c:dbase_llist_del", "libsemanage/src/database_llist.c:dbase_llist_list", "libsemanage/src/database_llist.c:dbase_llist_iterate"]}
{"id": "C36", "title": "A crashed commit never leaves a half-written active store", "statement": "At every crash point of a commit, the active policy store is either the complete old store or the complete new store.", "quantifier": "all crash points of semanage_commit_sandbox and all failing system calls", "why_tests_cant": "needs every crash point", "anchors": ["libsemanage/src/semanage_store.c:semanage_commit_sandbox", "libsemanage/src/semanage_store.c:semanage_make_sandbox"]}
{"id": "C37", "title": "A failed commit restores the previous store and installed policy", "statement": "When semanage_commit fails, the active store and the installed policy files are those from before the transaction.", "quantifier": "all failing system calls", "why_tests_cant": "every failure point", "anchors": ["libsemanage/src/semanage_store.c:semanage_commit_sandbox", "libsemanage/src/semanage_store.c:semanage_install_final_tmp"]}
{"id": "C38", "title": "Read-only queries do not leave locks behind", "statement": "Every libsemanage query outside a transaction returns with the active-store lock released, whether it succeeds or fails.", "quantifier": "all query functions, all failure points", "why_tests_cant": "each failing step must be covered", "anchors": ["libsemanage/src/database.c:enter_ro", "libsemanage/src/database.c:exit_ro"]}
{"id": "C39", "title": "File-context entries are sorted stably by specificity", "statement": "semanage_fc_sort's merge sort outputs a permutation of its input that is ordered by the documented specificity relation and keeps the relative order of equally specific entries.", "quantifier": "all lists of file-context entries", "why_tests_cant": "all permutations", "anchors": ["libsemanage/src/semanage_store.c:semanage_fc_merge_sort", "libsemanage/src/semanage_store.c:semanage_fc_merge", "libsemanage/src/semanage_store.c:semanage_fc_compare"]}
{"id": "C40", "title": "Access-vector tables survive a write/read cycle", "statement": "For every table of representable rules, writing it to a binary policy (format version 30 or later) and reading it back succeeds, consumes exactly the bytes written, and yields a table with the same number of rules and the same enumeration for every key (apart from the unused data word of extended-permission rules).", "quantifier": "all insertion histories of representable rules, any table sizes, any trailing bytes", "why_tests_cant": "tables are unbounded and re-hashed into a different number of buckets on reading", "anchors": ["libsepol/src/avtab.c:avtab_read", "libsepol/src/avtab.c:avtab_read_item", "libsepol/src/write.c:avtab_write", "libsepol/src/write.c:avtab_write_item"]}
{"id": "C41", "title": "Reading untrusted access-vector tables is safe", "statement": "For every byte string, avtab_read either fails or returns a table that is the result of inserting, one by one and without conflict, the number of rules announced in the header, each with exactly one known kind; in particular no key has two non-xperm rules of the same kind.", "quantifier": "all byte strings", "why_tests_cant": "the input space is all byte strings", "anchors": ["libsepol/src/avtab.c:avtab_read", "libsepol/src/avtab.c:avtab_read_item"]}
{"id": "C42", "title": "Context text buffers have exactly the right size", "statement": "For every policy and context, the length computed by mls_compute_context_len equals the number of characters mls_sid_to_context writes, and context_to_string allocates exactly the length of its result plus one.", "quantifier": "all policies, contexts and category sets", "why_tests_cant": "the buffer is filled by a second, separate traversal; an off-by-one depends on the shape of the category set", "anchors": ["libsepol/src/mls.c:mls_compute_context_len", "libsepol/src/mls.c:mls_sid_to_context", "libsepol/src/context.c:context_to_string"]}
{"id": "C43", "title": "The common part of two ranges is a valid range", "statement": "mls_range_glblub fails exactly when the two (valid) ranges share no sensitivity; otherwise the result is a valid range whose sensitivities are exactly the common ones and whose category sets are the intersections.", "quantifier": "all pairs of valid ranges", "why_tests_cant": "two unbounded category sets and sensitivities", "anchors": ["libsepol/include/sepol/policydb/mls_types.h:mls_range_glblub"]}
{"id": "C44", "title": "Login ranges stay within the user's authorisation", "statement": "For every originating range and user, a range computed by mls_setup_user_range is valid, lies within the user's authorised range and does not exceed the originating clearance.", "quantifier": "all ranges and users with a default level in their range", "why_tests_cant": "unbounded category sets in three levels", "anchors": ["libsepol/src/mls.c:mls_setup_user_range"]}
{"id": "C45", "title": "Converting a context to another policy keeps its meaning", "statement": "When mls_convert_context succeeds, each level has the same sensitivity name and exactly the same category names in the new policy as it had in the old one; converting to the same policy is the identity.", "quantifier": "all pairs of policies and all ranges", "why_tests_cant": "depends on two arbitrary numberings of names", "anchors": ["libsepol/src/mls.c:mls_convert_context"]}
{"id": "C46", "title": "Reordering conditional rules changes nothing", "statement": "cond_optimize_lists keeps every rule of every conditional exactly once in its list, puts the type rules first, keeps the order of the other rules, and under every assignment of the booleans the same rules are selected.", "quantifier": "all rule lists and conditionals", "why_tests_cant": "pointer surgery on lists of any length and content", "anchors": ["libsepol/src/conditional.c:cond_optimize", "libsepol/src/conditional.c:cond_optimize_lists"]}
{"id": "C47", "title": "Expanding a conditional keeps its rules under its condition", "statement": "cond_node_copy adds the rules of a source conditional to the output policy so that under every assignment of the booleans exactly the rules of the selected branch become selected, in addition to those of the conditionals copied before.", "quantifier": "all expressions, boolean mappings, and sequences of conditionals", "why_tests_cant": "interaction of two normalisations and the merging of conditionals", "anchors": ["libsepol/src/expand.c:cond_node_copy", "libsepol/src/expand.c:cond_node_map_bools", "libsepol/src/conditional.c:cond_node_search"]}
{"id": "C48", "title": "A policy reload keeps the meaning of SIDs", "statement": "After a successful sepol_load_policy every SID either maps to the context with the same user, role, type, sensitivity and category names under the new policy (valid there, in enforcing mode) or to nothing; SIDs whose context is still valid under its names keep it; new SIDs can be issued again.", "quantifier": "all SID tables reachable by loads, conversions and reloads, all pairs of policies", "why_tests_cant": "two arbitrary numberings and an unbounded table", "anchors": ["libsepol/src/services.c:sepol_load_policy", "libsepol/src/services.c:convert_context", "libsepol/src/sidtab.c:sepol_sidtab_map_remove_on_error"]}
{"id": "C49", "title": "SIDs are not reused", "statement": "A SID that was dropped by a policy reload is never issued again for a different context.", "quantifier": "all histories of conversions and reloads", "why_tests_cant": "needs a history of several reloads", "anchors": ["libsepol/src/services.c:sepol_load_policy", "libsepol/src/sidtab.c:sepol_sidtab_insert"]}
{"id": "C50", "title": "Audit decisions follow the audit rules", "statement": "A granted permission is to be audited exactly when an active auditallow rule covers it; a denied permission is exempt from auditing exactly when an active dontaudit rule covers it.", "quantifier": "all policies, contexts, classes, boolean states, permissions", "why_tests_cant": "ranges over all rule sets and attribute maps", "anchors": ["libsepol/src/services.c:context_struct_compute_av", "libsepol/src/conditional.c:cond_compute_av"]}
{"id": "C51", "title": "Denial reasons are accurate", "statement": "The reason bits returned with an access decision name exactly the checks (type enforcement, constraints, role rules, type bounds) that removed a requested permission; no reason is reported exactly when all requested permissions are granted.", "quantifier": "all policies, contexts, classes, requested vectors", "why_tests_cant": "the interplay of stages depends on arbitrary policies", "anchors": ["libsepol/src/services.c:context_struct_compute_av", "libsepol/src/services.c:sepol_compute_av_reason"]}
{"id": "C52", "title": "The contexts offered to a user are the ones the user can enter", "statement": "sepol_get_user_sids returns each context exactly once that consists of the user, one of the user's roles, a type of that role other than the caller's, the login range, and to which the policy grants the caller the process transition; and no other.", "quantifier": "all policies, SID tables, callers and users", "why_tests_cant": "quantifies over role and type sets and all decisions", "anchors": ["libsepol/src/services.c:sepol_get_user_sids", "libsepol/src/mls.c:mls_setup_user_range"]}
{"id": "C53", "title": "Cached contexts of new objects belong to their triple", "statement": "avc_compute_create returns a SID only if the kernel computed that context for the same source, target and class since the last flush of the cache.", "quantifier": "all histories of cache operations, all kernel answers, evictions and recycled entries", "why_tests_cant": "depends on every history of evictions and resets", "anchors": ["libselinux/src/avc.c:avc_compute_create", "libselinux/src/avc.c:avc_claim_node"]}
{"id": "C54", "title": "Audit messages list exactly the permissions to be audited", "statement": "avc_audit writes a message exactly when a requested permission is to be audited: the denied ones the policy does not exempt, all requested ones when the check failed without a denied permission, and otherwise the allowed ones the policy wants audited; the message says denied exactly when the check failed or a permission is not allowed, and its permissive field tells whether the check succeeded nevertheless.", "quantifier": "all requested vectors, decisions and results", "why_tests_cant": "2^32 vectors in four fields", "anchors": ["libselinux/src/avc.c:avc_audit", "libselinux/src/avc.c:avc_has_perm"]}
{"id": "C55", "title": "Names of classes and permissions", "statement": "string_to_security_class and string_to_av_perm give the number of the class and the bit of the permission with that name in the loaded policy (or, with a mapping, in the application's list), 0 exactly for unknown names, and the numbers lead back to the names; selinux_check_access asks about exactly the named permission and grants unknown ones exactly if the policy allows unknown ones; security_av_string never overruns its buffer and shows exactly the names of the set bits.", "quantifier": "all policies, mappings, cache contents, names and vectors", "why_tests_cant": "unbounded names and histories of lookups", "anchors": ["libselinux/src/stringrep.c:string_to_security_class", "libselinux/src/stringrep.c:string_to_av_perm", "libselinux/src/stringrep.c:security_av_string", "libselinux/src/checkAccess.c:selinux_check_access"]}
{"id": "C56", "title": "Incremental SHA-256 equals one-shot SHA-256", "statement": "For every way of splitting a message into Sha256Update calls, every call ends and stays inside its buffers, and the digest equals FIPS 180-4 SHA-256 of the whole message; the constants are those of the standard.", "quantifier": "all messages and all splits", "why_tests_cant": "infinite domain", "anchors": ["libsemanage/src/sha256.c:Sha256Update", "libsemanage/src/sha256.c:Sha256Finalise"]}
{"id": "C57", "title": "A commit notices modules that changed from outside", "statement": "A commit that was asked to check for external changes and that does not link the modules again found the same options and the same module sources, in the order of their names, as the commit that recorded the checksum, up to collisions of SHA-256; the checksum does not depend on the order of the modules nor on which of them were compiled beforehand.", "quantifier": "all stores, module sets, options and histories of two commits", "why_tests_cant": "all pairs of stores; injectivity of an encoding", "anchors": ["libsemanage/src/direct_api.c:semanage_compile_hll_modules", "libsemanage/src/direct_api.c:semanage_compare_checksum", "libsemanage/src/direct_api.c:semanage_direct_commit", "libsemanage/src/modules.c:semanage_hash_to_checksum_string"]}
{"id": "C58", "title": "Queries see committed data or the caller's own transaction", "statement": "For every history of a libsemanage handle and of other processes that commit, a query outside a transaction returns what the active store holds, a query in a transaction returns the store as it was at the begin with the changes of this transaction, a commit makes exactly these changes, and no operation uses invalid memory; when nothing goes wrong queries are answered.", "quantifier": "all histories of connect, begin, query, change, commit, disconnect and foreign commits; all failures of locks, files and memory", "why_tests_cant": "interleavings and failure points", "anchors": ["libsemanage/src/database.c:enter_ro", "libsemanage/src/database_file.c:dbase_file_cache", "libsemanage/src/database_llist.c:dbase_llist_needs_resync", "libsemanage/src/direct_api.c:semanage_direct_commit"]}
{"id": "C59", "title": "The transaction lock is held exactly during a transaction", "statement": "Outside a transaction a handle does not hold the transaction lock, inside it does; closing the handle releases it.", "quantifier": "all histories of a handle and all failures", "why_tests_cant": "failure points", "anchors": ["libsemanage/src/direct_api.c:semanage_direct_begintrans", "libsemanage/src/direct_api.c:semanage_direct_disconnect", "libsemanage/src/semanage_store.c:semanage_get_trans_lock"]}
{"id": "C60", "title": "A file gets the label of its most specific specification", "statement": "With the specifications of all the files read in order, looking up an absolute path and a kind of file returns the context of a specification that names this path for this kind of file (one for a special kind before one for all), else of the last regular expression that matches the path and the kind; a chosen context of <<none>> or no match at all is reported as not found. The result does not depend on how the sorting function orders equal elements.", "quantifier": "all file_contexts files, paths, kinds, engines for regular expressions and sorting functions", "why_tests_cant": "all specification files against all paths", "anchors": ["libselinux/src/label_file.h:insert_spec", "libselinux/src/label_file.c:sort_spec_node", "libselinux/src/label_file.c:lookup_check_node", "libselinux/src/label_file.c:lookup_all", "libselinux/src/label_file.c:lookup"]}
{"id": "C61", "title": "The spelling of slashes in a path does not matter to lookups", "statement": "Two absolute paths that have the same names between slashes get the same label.", "quantifier": "all paths, substitutions and databases", "why_tests_cant": "all paths", "anchors": ["libselinux/src/label_file.c:lookup_all", "libselinux/src/label_file.c:strstr"]}
{"id": "C62", "title": "Path substitutions replace directories, the first one that applies", "statement": "A path at or below the source of a substitution is looked up as the path with the destination in its place; only whole names count; the first substitution of the local file is used and then the first of the distribution's file; other paths are not changed.", "quantifier": "all lists of substitutions and paths", "why_tests_cant": "all lists of substitutions and paths", "anchors": ["libselinux/src/label_file.c:selabel_apply_subs", "libselinux/src/label_file.c:selabel_sub_key"]}
{"id": "C63", "title": "The best match among several names of a file", "statement": "selabel_lookup_best_match returns the label of the first of the names that a specification names exactly, else of the match with the longest fixed beginning, the first one among equals; it fails only if no name has a match.", "quantifier": "all databases, paths and lists of other names", "why_tests_cant": "all combinations", "anchors": ["libselinux/src/label_file.c:lookup_best_match"]}
{"id": "C64", "title": "A partial match is reported iff a specification may match below the path", "statement": "selabel_partial_match returns true exactly if there is a specification that a path that begins with the given one can match.", "quantifier": "all databases, paths and engines", "why_tests_cant": "all specification files against all paths", "anchors": ["libselinux/src/label_file.c:partial_match", "libselinux/src/label_file.c:search_literal_spec", "libselinux/src/label_file.c:lookup_check_node"]}
{"id": "C65", "title": "Lines of file_contexts mean what their words say", "statement": "A line is blank, a comment, a specification of two words (expression, context) or three (expression, kind of file, context; further words are ignored), or an error; white space around and between the words has no meaning; files without erroneous lines can be opened.", "quantifier": "all lines (byte strings) and files", "why_tests_cant": "all byte strings", "anchors": ["libselinux/src/label_support.c:read_spec_entry", "libselinux/src/label_support.c:read_spec_entries", "libselinux/src/label_file.h:process_line"]}
{"id": "C66", "title": "A file of path substitutions is read line by line", "statement": "The substitutions of a file are those of its lines of two words or more that are not comments, in order; nothing else is read.", "quantifier": "all files and all previous contents of the buffer", "why_tests_cant": "all files, uninitialised memory", "anchors": ["libselinux/src/label_file.c:selabel_subs_init"]}
{"id": "C67", "title": "A bounded type never has more access than its bounding type", "statement": "If hierarchy_check_constraints accepts a policy then for each type with a bound (declared, or implied by a dotted name), under every assignment of the booleans, every permission that the type is allowed on a target is allowed to its bounding type on that target, or on the bounding type of the target if there is one; and it rejects only policies in which this fails.", "quantifier": "all policies, types, targets, classes, permissions and values of the booleans", "why_tests_cant": "all policies and all values of the booleans", "anchors": ["libsepol/src/hierarchy.c:bounds_check_type", "libsepol/src/hierarchy.c:bounds_expand_parent_rules", "libsepol/src/hierarchy.c:bounds_check_rule", "libsepol/src/hierarchy.c:bounds_check_types"]}
{"id": "C68", "title": "Dotted names imply bounds; bounded roles and users have no more types and roles than their bounds", "statement": "The check gives each type, role and user without a declared bound the symbol named by its name up to the last dot as its bound, changes nothing else in the policy, and never fails internally; it succeeds exactly if every dotted name without a declared bound has such a symbol, the types of each bounded role are types of its bounding role, the roles of each bounded user are roles of its bounding user, and the rules of each bounded type pass their check.", "quantifier": "all policies", "why_tests_cant": "all symbol tables", "anchors": ["libsepol/src/hierarchy.c:hierarchy_check_constraints", "libsepol/src/hierarchy.c:hierarchy_add_bounds", "libsepol/src/hierarchy.c:bounds_check_roles", "libsepol/src/hierarchy.c:bounds_check_users"]}
{"id": "C69", "title": "Linking switches on the largest set of optional parts whose requirements are met", "statement": "sepol_link_modules switches on a set of bodies of the blocks of the base policy and the modules (global blocks and bodies of optional statements): the largest set in which everything that a body requires (types, attributes, roles, users, booleans, levels, categories, classes and their permissions) is declared by a body of the set. The else branch of an optional statement is switched on exactly if its body is not and its own requirements are met. Linking succeeds exactly if all bodies that are not optional are in the set, and else reports a symbol that such a body requires and that no body of the set declares. The result does not depend on the order of the modules.", "quantifier": "all policies, blocks, requirements and orders of modules", "why_tests_cant": "all requirement graphs, also cyclic ones", "anchors": ["libsepol/src/link.c:enable_avrules", "libsepol/src/link.c:is_decl_requires_met", "libsepol/src/link.c:is_id_enabled", "libsepol/src/link.c:is_perm_existent"]}
{"id": "C70", "title": "A role attribute ends up with exactly the roles in it", "statement": "After linking, each role attribute has exactly the plain roles that were made its members, by the base policy or by a switched-on declaration, directly or through other attributes; plain roles are unchanged. Linking ends for every policy.", "quantifier": "all role tables, memberships and orders of the table", "why_tests_cant": "all membership graphs", "anchors": ["libsepol/src/link.c:populate_decl_roleattributes", "libsepol/src/link.c:expand_role_attributes"]}
{"id": "C71", "title": "The sets of CIL are what the expressions say", "statement": "Compiling CIL gives every type, role and user attribute, category set and permission set exactly the members that its expressions (and, or, xor, not, all, range, and plain lists, with attributes inside) denote, and roles and users exactly the types and roles of the roletype and userrole statements, in whatever order the statements are visited. Evaluation ends, without undefined behaviour, and fails only if a range is the wrong way round or (all) ranges over nothing. Attributes that refer to themselves through others, and only those, are found by the check for self-reference, which always ends.", "quantifier": "all databases of symbols and expressions, of any depth and number, and all orders of evaluation", "why_tests_cant": "all expressions and all graphs of references", "anchors": ["libsepol/cil/src/cil_post.c:__cil_expr_to_bitmap", "libsepol/cil/src/cil_post.c:__cil_expr_list_to_bitmap", "libsepol/cil/src/cil_post.c:__evaluate_cat_expression", "libsepol/cil/src/cil_post.c:__cil_type_to_bitmap", "libsepol/cil/src/cil_post.c:__cil_post_db_roletype_helper", "libsepol/cil/src/cil_verify.c:cil_verify_no_self_reference"]}
{"id": "C72", "title": "The order of symbols is the one that the order statements of all modules determine", "statement": "Compiling CIL numbers the security identifiers, classes, categories and sensitivities in an order in which every order statement of every module is respected, no symbol appears twice and every declared symbol appears; statements are accepted only if they leave no other order, so the outcome does not depend on the order of the modules; unordered classes follow in the order of their first appearance. Statements that leave exactly one order are accepted.", "quantifier": "all collections of order statements, in any order", "why_tests_cant": "all collections and orders of statements", "anchors": ["libsepol/cil/src/cil_resolve_ast.c:__cil_ordered_lists_merge_all", "libsepol/cil/src/cil_resolve_ast.c:__cil_ordered_lists_merge", "libsepol/cil/src/cil_verify.c:cil_verify_completed_ordered_list", "libsepol/cil/src/cil_verify.c:__cil_verify_ordered"]}
{"id": "C73", "title": "No two context rules of a compiled policy are for the same object", "statement": "Compiling CIL keeps exactly one of the filecon, portcon, nodecon, netifcon, genfscon, ibpkeycon, ibendportcon, fsuse, pirqcon, iomemcon, ioportcon, pcidevicecon and devicetreecon rules given for an object, in the order that the lookup relies on, whatever order qsort leaves equal rules in: the first kept rule that has a port is one with the narrowest range of all rules given that have it, the first rule that matches an address one with the greatest mask, and filecon rules go from less to more specific paths. Rules for the same object with different contexts are an error; if multiple declarations are not allowed so are two rules for the same object. There is no other error and no undefined behaviour.", "quantifier": "all lists of rules and all orders that qsort may leave them in", "why_tests_cant": "all lists of rules; qsort's order of equal elements is unspecified", "anchors": ["libsepol/cil/src/cil_post.c:__cil_post_process_context_rules", "libsepol/cil/src/cil_post.c:context_compare", "libsepol/cil/src/cil_post.c:cil_post_portcon_compare", "libsepol/cil/src/cil_post.c:cil_post_filecon_compare", "libsepol/cil/src/cil_post.c:cil_post_genfscon_compare"]}
{"id": "C74", "title": "A deny rule removes exactly what it denies", "statement": "Compiling CIL with deny rules gives a policy in which a source type is allowed a permission of a class on a target type (unconditionally, or in a given branch of a conditional) exactly if the allow rules say so and no deny rule covers that source, target, class and permission; whatever mixture of types, attributes, self, notself, other, class maps and class permission sets the rules use. Rules of other kinds are unchanged, and processing does not fail.", "quantifier": "all policies: rules, deny rules, attributes, class permissions of any nesting", "why_tests_cant": "all combinations of sets of types and nested permissions", "anchors": ["libsepol/cil/src/cil_deny.c:cil_process_deny_rules_in_ast", "libsepol/cil/src/cil_deny.c:cil_remove_permissions_from_rule", "libsepol/cil/src/cil_deny.c:cil_remove_permissions_from_special_rule", "libsepol/cil/src/cil_deny.c:cil_classperms_list_andnot", "libsepol/cil/src/cil_find.c:cil_find_matching_avrule_in_ast"]}
{"id": "C75", "title": "The access vector rules of CIL are the ones that the kernel decides by", "statement": "If a CIL policy compiles, then a kernel that loads the binary policy, with whatever values of the booleans, decides by the type enforcement rules that a source type may use a permission of a class on a target type exactly if some allow rule of the CIL policy that is outside of conditionals, or in a branch that the booleans choose, covers the two types (through types, attributes, self, notself or other) and lists the permission; the same for auditallow and dontaudit. It does not matter whether the compiler keeps an attribute or expands it. A policy whose names are all known compiles, and any compiled policy can be loaded.", "quantifier": "all policies, types, classes, permissions and values of the booleans", "why_tests_cant": "all policies and all values of the booleans", "anchors": ["libsepol/cil/src/cil_binary.c:__cil_avrule_to_avtab", "libsepol/cil/src/cil_binary.c:__cil_avrule_expand", "libsepol/cil/src/cil_binary.c:__cil_insert_avrule", "libsepol/cil/src/cil_binary.c:cil_typeattribute_to_bitmap", "libsepol/cil/src/cil_binary.c:__cil_cond_insert_rule", "libsepol/src/services.c:context_struct_compute_av"]}
{"id": "C76", "title": "A type rule of CIL is found by the kernel with the result that the policy says", "statement": "If a CIL policy compiles, then for two types, a class and a kind of type rule (transition, change, member) the binary policy has the result that the rules outside of conditionals say and none if they say none, and each branch of a conditional has exactly the results that its rules say unless a rule outside of conditionals says it already. Rules that contradict each other (both outside of conditionals, one outside and one inside, or both in one branch) are an error; a policy whose names are known and whose rules agree compiles.", "quantifier": "all policies, types, classes and kinds of rules", "why_tests_cant": "all combinations of rules in all orders", "anchors": ["libsepol/cil/src/cil_binary.c:__cil_insert_type_rule", "libsepol/cil/src/cil_binary.c:__cil_type_rule_to_avtab", "libsepol/cil/src/cil_binary.c:cil_cond_av_list_search", "libsepol/cil/src/cil_binary.c:__cil_cond_insert_rule"]}
{"id": "C77", "title": "The kernel checks exactly the ioctl commands and netlink messages that the rules of CIL list", "statement": "If a CIL policy with rules for extended permissions compiles, then for two types and a class the binary policy allows (audits, does not audit) an ioctl command or a netlink message type exactly if some rule outside of conditionals, or in a branch that the booleans choose, covers the types and lists the number for the class, however the numbers are spread over rules, ranges, drivers and functions and whatever the order in which hash tables are visited; commands are checked at all exactly if there is such a rule with some number; and no other decision changes. Rules for known names compile.", "quantifier": "all sets of numbers up to 65535, all rules, types, classes and values of the booleans, all orders of hash tables", "why_tests_cant": "all sets of 16-bit numbers and all combinations of rules", "anchors": ["libsepol/cil/src/cil_binary.c:__cil_permx_bitmap_to_sepol_xperms_list", "libsepol/cil/src/cil_binary.c:__avrule_xperm_setrangebits", "libsepol/cil/src/cil_binary.c:cil_avrulex_to_hashtable", "libsepol/cil/src/cil_binary.c:__cil_avrulex_xperm_to_hashtable", "libsepol/cil/src/cil_binary.c:__cil_avrulex_xperm_to_policydb"]}
{"id": "C78", "title": "The conditionals of CIL choose the block that their expression means", "statement": "cil_compile accepts the expression of a booleanif or tunableif exactly if it is built from names, not with one operand, and, or, xor, eq and neq with two, and lists, written in one way; for a booleanif it must also need no more than ten values at a time. A tunableif is replaced by the rules of the block that the expression chooses for the values of the tunables, a list being true if one of its members is. In the binary policy a rule of a booleanif is selected exactly if the expression chooses its block for the current values of the booleans, whatever these are and however conditionals are normalised and merged.", "quantifier": "all expressions, sequences of statements, and values of booleans and tunables", "why_tests_cant": "unbounded expressions; interaction of normalisation and merging over all assignments", "anchors": ["libsepol/cil/src/cil_build_ast.c:cil_gen_expr", "libsepol/cil/src/cil_verify.c:cil_verify_expr_syntax", "libsepol/cil/src/cil_resolve_ast.c:cil_resolve_tunif", "libsepol/cil/src/cil_binary.c:__cil_cond_expr_to_sepol_expr_helper", "libsepol/cil/src/cil_binary.c:__cil_validate_cond_expr", "libsepol/cil/src/cil_binary.c:cil_booleanif_to_policydb"]}
{"id": "C79", "title": "The constraints of CIL remove the permissions that their expressions say", "statement": "If the constrain, mlsconstrain, validatetrans and mlsvalidatetrans statements of a CIL policy compile, then in deciding an access the constraints of a class remove a permission exactly if the expression of some constrain statement that lists the permission (through classes, class maps or class permission sets) is false of the two contexts, where a name stands for a user, role or type or for all members of an attribute; and a transition is refused exactly if the expression of some validatetrans statement for the class is false of the three contexts. Only the documented expressions are accepted; documented expressions with known names that need no more than five values at a time compile.", "quantifier": "all expressions, statements, nestings of class permissions, contexts", "why_tests_cant": "unbounded expressions and all pairs and triples of contexts", "anchors": ["libsepol/cil/src/cil_build_ast.c:cil_fill_constraint_expr", "libsepol/cil/src/cil_verify.c:cil_verify_constraint_leaf_expr_syntax", "libsepol/cil/src/cil_verify.c:cil_verify_constraint_expr_syntax", "libsepol/cil/src/cil_binary.c:__cil_constrain_expr_leaf_to_sepol_expr", "libsepol/cil/src/cil_binary.c:__cil_validate_constrain_expr", "libsepol/cil/src/cil_binary.c:cil_constrain_to_policydb", "libsepol/cil/src/cil_binary.c:cil_validatetrans_to_policydb", "libsepol/src/services.c:constraint_expr_eval_reason"]}
{"id": "C80", "title": "The parser of CIL reads a text as it is written", "statement": "For every text, cil_add_file (through the parser) either rejects the text or builds the one tree that the text writes: lists in parentheses of symbols, quoted strings and lists, with white space and comments in between. Every text that writes statements nested no deeper than the limit is accepted, and no text makes the parser follow a parent pointer out of the tree.", "quantifier": "all texts, of any length and nesting", "why_tests_cant": "all byte strings", "anchors": ["libsepol/cil/src/cil_parser.c:cil_parser", "libsepol/cil/src/cil_parser.c:add_hll_linemark", "libsepol/cil/src/cil_lexer.l", "libsepol/cil/src/cil.c:cil_add_file"]}
{"id": "C81", "title": "Expressions of a binary policy are written in CIL with the same meaning", "statement": "sepol_kernel_policydb_to_cil writes the expression of every conditional as an expression of CIL that cil_compile reads and that has the same value for all values of the booleans, and the expression of every constraint as one that is true of the same contexts; it needs no more values at a time than the original, so it is accepted if the original was. What is not an expression is not written.", "quantifier": "all expressions, names and contexts", "why_tests_cant": "unbounded expressions and all pairs and triples of contexts", "anchors": ["libsepol/src/kernel_to_cil.c:cond_expr_to_str", "libsepol/src/kernel_to_cil.c:constraint_expr_to_str", "libsepol/src/kernel_to_common.c:ebitmap_to_str", "libsepol/src/expand.c:constraint_node_clone"]}
{"id": "C82", "title": "Levels and ranges of a binary policy are written with the same meaning", "statement": "sepol_kernel_policydb_to_cil writes every level as a level of CIL, and sepol_kernel_policydb_to_conf as a level of the policy language, with the same sensitivity and the same set of categories, ranges of three and more categories as ranges.", "quantifier": "all sensitivities, sets of categories and names", "why_tests_cant": "all subsets of an unbounded number of categories", "anchors": ["libsepol/src/kernel_to_cil.c:cats_ebitmap_len", "libsepol/src/kernel_to_cil.c:cats_ebitmap_to_str", "libsepol/src/kernel_to_cil.c:level_to_str", "libsepol/src/kernel_to_cil.c:range_to_str", "libsepol/src/kernel_to_conf.c:cats_ebitmap_to_str", "libsepol/src/kernel_to_conf.c:level_to_str"]}
{"id": "C83", "title": "The rules of a binary policy are written in CIL with the same meaning", "statement": "sepol_kernel_policydb_to_cil writes each access vector rule, extended permission rule and type rule, outside and inside of conditionals, as one rule of CIL that says the same about all pairs of types, classes, permissions and command numbers, and each conditional as one that is accepted by cil_compile.", "quantifier": "all tables of rules, all lists of conditionals, all assignments of types to attributes", "why_tests_cant": "unbounded tables, all types, permissions and 65536 numbers for each of two kinds", "anchors": ["libsepol/src/kernel_to_cil.c:avtab_node_to_str", "libsepol/src/kernel_to_cil.c:xperms_to_str", "libsepol/src/kernel_to_cil.c:write_avtab_to_cil", "libsepol/src/kernel_to_cil.c:write_cond_av_list_to_cil", "libsepol/src/kernel_to_cil.c:write_cond_nodes_to_cil", "libsepol/src/util.c:sepol_av_to_string", "libsepol/src/policydb_validate.c:validate_xperms"]}
{"id": "C84", "title": "A kernel policy is accepted exactly if everything in it refers to what it declares", "statement": "sepol_policydb_read (policydb_read of a kernel policy) accepts the tables of a policy if and only if the symbols have distinct numbers within their tables and every reference in a rule, conditional, constraint, context, level or set is to a declared symbol of the right kind, expressions are well formed and fit the evaluation stacks, and permissions of a class are numbered without gaps. The check itself never uses a null pointer.", "quantifier": "all policies that the reader can have built", "why_tests_cant": "unbounded tables, rules and expressions", "anchors": ["libsepol/src/policydb_validate.c:policydb_validate", "libsepol/src/policydb_validate.c:validate_avtab_key_and_datum", "libsepol/src/policydb_validate.c:validate_cond_expr", "libsepol/src/policydb_validate.c:validate_constraint_nodes", "libsepol/src/policydb_validate.c:validate_class_datum", "libsepol/src/policydb.c:policydb_index_classes", "libsepol/src/policydb.c:policydb_index_others"]}
{"id": "C85", "title": "A set of types of a module expands to the types it names", "statement": "When a module is expanded, a set of types (with attributes, exclusions, `*` and `~`) becomes a set that stands for exactly the types that the set names: those included and not excluded, all that are not excluded for `*`, all others for `~`.", "quantifier": "all policies, all sets of types, all attributes", "why_tests_cant": "all subsets of an unbounded number of types", "anchors": ["libsepol/src/expand.c:type_set_expand", "libsepol/src/expand.c:expand_convert_type_set", "libsepol/src/expand.c:map_ebitmap"]}
{"id": "C86", "title": "Expanded access vectors grant exactly what the rules of the modules say", "statement": "After sepol_expand_module, for every pair of types, every class and every permission, the table without conditions and each branch of each conditional allow it (or audit it, or leave it unaudited, or allow an extended permission of a driver) if and only if a rule of that place is about the pair and says so; with dontaudit rules disabled those have no effect; expansion does not fail unless type rules conflict.", "quantifier": "all lists of rules and conditionals, all type sets, classes, permissions and drivers", "why_tests_cant": "unbounded sequences of rules whose entries are merged", "anchors": ["libsepol/src/expand.c:convert_and_expand_rule", "libsepol/src/expand.c:expand_rule_helper", "libsepol/src/expand.c:expand_avrule_helper", "libsepol/src/expand.c:find_avtab_node", "libsepol/src/expand.c:allocate_xperms", "libsepol/src/expand.c:cond_avrule_list_copy"]}
{"id": "C87", "title": "Expanded type rules are deterministic and come from the rules of the modules", "statement": "After sepol_expand_module, for all values of the booleans, each source, target and class has at most one type for transitions, one for members and one for changes; that type is the one of a rule of the modules; every rule has its effect; rules that contradict each other are reported.", "quantifier": "all lists of rules and conditionals, all values of conditionals", "why_tests_cant": "unbounded sequences of rules, all combinations of booleans", "anchors": ["libsepol/src/expand.c:expand_terule_helper", "libsepol/src/expand.c:find_avtab_node", "libsepol/src/expand.c:cond_avrule_list_copy"]}
{"id": "C88", "title": "A kernel policy that is written is read back", "statement": "If a kernel policy has parts of the sizes that its format has room for, names that differ, and passes validation, then policydb_write succeeds and policydb_read of what it wrote, whatever follows it, succeeds and yields the same policy: all that the format of that version holds, with rules and paths of file systems in another order at most.", "quantifier": "all kernel policies of versions 26 to 34 for SELinux and Xen, all bytes that follow", "why_tests_cant": "policies of unbounded size, all versions, two nested formats with many optional parts", "anchors": ["libsepol/src/write.c:policydb_write", "libsepol/src/policydb.c:policydb_read", "libsepol/src/avtab.c:avtab_read", "libsepol/src/conditional.c:cond_read_list"]}
{"id": "C89", "title": "Whatever is read as a kernel policy can be relied on", "statement": "If policydb_read accepts a kernel policy, from any bytes, then the policy passes validation, names and keys in each table differ, no two plain rules are about the same, each pair of types has at most one type for transitions of a class whatever the booleans are, entries for paths are sorted so that the first that is a prefix is the longest, contexts are valid, and the maps between types and attributes are each other's inverses.", "quantifier": "all sequences of bytes", "why_tests_cant": "the reader must establish invariants on arbitrary, possibly hostile input", "anchors": ["libsepol/src/policydb.c:policydb_read", "libsepol/src/policydb_validate.c:policydb_validate", "libsepol/src/conditional.c:cond_insertf", "libsepol/src/policydb.c:filename_trans_read", "libsepol/src/policydb.c:genfs_read"]}
{"id": "C90", "title": "A kernel policy that is cut off is not accepted", "statement": "policydb_read reads a policy from the start of its input; what follows has no influence on the result and is left; a proper part of a policy is not accepted.", "quantifier": "all sequences of bytes, all places where they are cut off", "why_tests_cant": "all truncations of all inputs", "anchors": ["libsepol/src/policydb.c:policydb_read", "libsepol/src/services.c:next_entry"]}
{"id": "C91", "title": "Name-based type transitions say what the rules say, and contradictions are errors", "statement": "When rules that give the type of new objects with a certain name are compiled or expanded, the resulting table says exactly what the rules say, whatever their order and repetition; rules are refused if and only if two of them contradict each other.", "quantifier": "all sequences of rules", "why_tests_cant": "unbounded sequences of rules, in all orders, share entries", "anchors": ["libsepol/src/policydb.c:policydb_filetrans_insert", "libsepol/src/expand.c:expand_filename_trans_helper", "libsepol/cil/src/cil_binary.c:__cil_typetransition_to_avtab_helper", "checkpolicy/policy_define.c:define_filename_trans"]}
{"id": "C92", "title": "The SELinux user of a Linux user is that of the most specific entry", "statement": "getseuserbyname gives the SELinux user and level of the first entry of the user, without one that of the first entry of a group of the user, without one that of the first entry __default__, and otherwise the name itself or, if an entry is required, a failure; lines that are no entries do not matter. getseuser gives what the first line of the service in the file of the user says, without one what the last line `*` says, and otherwise what getseuserbyname gives.", "quantifier": "all files, names, groups and services", "why_tests_cant": "all contents of files and orders of entries", "anchors": ["libselinux/src/seusers.c:getseuserbyname", "libselinux/src/seusers.c:process_seusers", "libselinux/src/seusers.c:getseuser"]}
{"id": "C93", "title": "The contexts for a login are the valid ones that the files list, in their order", "statement": "get_ordered_context_list gives the contexts that the file of the user and then the file of all users list for the role and the type of the caller's context, with the user and the caller's level, in this order, each once, and only those that the kernel accepts; if there are none it gives the context of last resort. The functions for a level, for a role and for the default give what follows from this list.", "quantifier": "all files, users, contexts and answers of the kernel", "why_tests_cant": "all contents of files, all answers of the kernel", "anchors": ["libselinux/src/get_context_list.c:get_ordered_context_list", "libselinux/src/get_context_list.c:get_context_user", "libselinux/src/get_context_list.c:get_failsafe_context", "libselinux/src/get_context_list.c:get_default_context_with_role", "libselinux/src/get_context_list.c:get_ordered_context_list_with_level"]}
{"id": "C94", "title": "The default type of a role is that of its first line", "statement": "get_default_type gives the type of the first line `role:type` of the file of default types, and an error if there is none.", "quantifier": "all files and roles", "why_tests_cant": "all contents of files", "anchors": ["libselinux/src/get_default_type.c:get_default_type", "libselinux/src/get_default_type.c:find_default_type"]}
{"id": "C95", "title": "Local customisations are read back as they were written", "statement": "For each kind of local customisation (logins, booleans, file contexts, ports, interfaces, nodes, InfiniBand end ports and partition keys, users, prefixes of users) the file that is written for a list of records is read back as the same list; and a login that was written is what getseuserbyname finds for the user.", "quantifier": "all lists of records of each kind", "why_tests_cant": "unboundedly many records and all strings in them", "anchors": ["libsemanage/src/database_file.c:dbase_file_flush", "libsemanage/src/database_file.c:dbase_file_cache", "libsemanage/src/parse_utils.c:parse_fetch_string", "libsemanage/src/seusers_file.c:seuser_parse", "libsemanage/src/booleans_file.c:bool_parse", "libsemanage/src/fcontexts_file.c:fcontext_parse", "libsemanage/src/ports_file.c:port_parse", "libsemanage/src/users_base_file.c:user_base_parse"]}
{"id": "C96", "title": "Reading local customisations is safe, ends and ignores comments", "statement": "Whatever a file of local customisations contains, reading it ends without a read through a null pointer or outside of a line, and comments and empty lines change nothing.", "quantifier": "all contents of files of each kind", "why_tests_cant": "all byte strings", "anchors": ["libsemanage/src/parse_utils.c:parse_skip_space", "libsemanage/src/parse_utils.c:parse_optional_str", "libsemanage/src/users_base_file.c:user_base_parse", "libsemanage/src/database_file.c:dbase_file_cache"]}
{"id": "C97", "title": "The policy is built from the version of each enabled module with the greatest priority", "statement": "After any sequence of installations, removals and switches of modules, with policy builds and extractions in between, the texts that the policy is built from are, in the order of names, those of the modules whose names are enabled, each with its greatest priority and compiled from its present text; a build fails only if one of these cannot be compiled; a successful commit makes it the policy of the store and a failing one changes nothing.", "quantifier": "all histories of module operations and all compilers", "why_tests_cant": "unboundedly long histories; a cached compilation can be stale only after a history", "anchors": ["libsemanage/src/semanage_store.c:semanage_get_active_modules", "libsemanage/src/semanage_store.c:semanage_get_cil_paths", "libsemanage/src/direct_api.c:semanage_compile_hll_modules", "libsemanage/src/direct_api.c:semanage_compile_module", "libsemanage/src/direct_api.c:semanage_direct_commit"]}
{"id": "C98", "title": "Modules that are installed can be listed, switched, extracted and removed", "statement": "After any sequence of operations a module operation succeeds exactly if its arguments are valid and the module exists, and changes nothing otherwise; listing shows each installed module once, greater priorities first, with its language and whether it is enabled; priority 0 finds the greatest; a module that is installed afresh is enabled; an extracted text is the installed one, or its compilation; names are those that the documented expression allows and cannot lead out of the store.", "quantifier": "all histories of module operations, all names and texts", "why_tests_cant": "unboundedly long histories and all strings", "anchors": ["libsemanage/src/direct_api.c:semanage_direct_install_info", "libsemanage/src/direct_api.c:semanage_direct_remove_key", "libsemanage/src/direct_api.c:semanage_direct_set_enabled", "libsemanage/src/direct_api.c:semanage_direct_get_module_info", "libsemanage/src/direct_api.c:semanage_direct_list_all", "libsemanage/src/direct_api.c:semanage_direct_extract", "libsemanage/src/modules.c:semanage_module_validate_name"]}
{"id": "C99", "title": "A list of ioctl commands or netlink messages in a policy source means what it says", "statement": "When checkpolicy compiles allowxperm (or auditallowxperm, dontauditxperm, neverallowxperm) with a list of numbers and ranges, perhaps inverted with ~, the blocks of the rules it makes list a number from 0 to 0xffff exactly if the list names it (or does not name it, with ~); a descending range is refused.", "quantifier": "all lists of numbers and ranges, inverted or not, and all numbers", "why_tests_cant": "unboundedly long lists over 2^16 numbers", "anchors": ["checkpolicy/policy_define.c:avrule_xperm_ranges", "checkpolicy/policy_define.c:avrule_sort_xperms", "checkpolicy/policy_define.c:avrule_merge_xperms", "checkpolicy/policy_define.c:avrule_omit_xperms", "checkpolicy/policy_define.c:define_te_avtab_ioctl", "checkpolicy/policy_define.c:define_te_avtab_netlink"]}
{"id": "C100", "title": "Objects get the labels that the statements of a policy source give to them", "statement": "checkpolicy accepts a list of portcon, nodecon, netifcon, fscon, fs_use, genfscon, ibpkeycon, ibendportcon statements (or the statements for Xen) exactly if each is right by itself and none is for the same object, range or network as an earlier one; with the policy it makes, the security server answers for every object with the label of its statement: the first portcon or ibpkeycon for the number, the nodecon that looks at most bits of the address (the longest prefix), the genfscon with the longest path, the statement with that name for the others, and the default label exactly if there is none.", "quantifier": "all lists of statements, on machines of either byte order, all objects, all SID tables and all earlier questions", "why_tests_cant": "unboundedly many statements in any order and all addresses, ports, paths and names", "anchors": ["checkpolicy/policy_define.c:define_port_context", "checkpolicy/policy_define.c:define_ipv4_node_context", "checkpolicy/policy_define.c:define_ipv6_cidr_node_context", "checkpolicy/policy_define.c:insert_ipv4_node", "checkpolicy/policy_define.c:define_genfs_context_helper", "checkpolicy/policy_define.c:define_fs_context", "checkpolicy/policy_define.c:define_fs_use", "libsepol/src/services.c:sepol_node_sid"]}
{"id": "C101", "title": "Local customisations of network objects take effect", "statement": "After semanage merges the local records into a policy, a port, partition key, Infiniband port, interface or address that a local record covers gets the label of a local record (the last one; for addresses one that looks at the most bits), and everything else is labelled as the policy says; a query for the range of a merged port record finds that record; the merge is refused only for unknown protocols, empty ranges and invalid contexts; local port and key records are accepted exactly if no two have a number in common.", "quantifier": "all local databases, all policies, all objects, all SID tables and earlier questions, every result of qsort", "why_tests_cant": "unboundedly many records in any order over all ports and addresses", "anchors": ["libsemanage/src/policy_components.c:semanage_base_merge_components", "libsemanage/src/ports_local.c:semanage_port_validate_local", "libsemanage/src/ibpkeys_local.c:semanage_ibpkey_validate_local", "libsepol/src/ports.c:sepol_port_modify", "libsepol/src/nodes.c:sepol_node_modify", "libsepol/src/interfaces.c:sepol_iface_modify", "libsepol/src/node_record.c:sepol_node_compare2"]}
{"id": "C102", "title": "Local customisations of users and booleans take effect", "statement": "A user record is accepted exactly if its roles exist and it has a level and a range just in MLS policies; the user then has the roles that those of the record dominate and its level and range, and may take these roles in contexts; no other user changes; a refused record changes nothing. A boolean of the policy has the value of its local record after the merge, or keeps its own; records of booleans that are not in the policy are dropped, no others; the merge is refused exactly for values other than 0 and 1.", "quantifier": "all policies, all user records and lists of them, all lists of booleans", "why_tests_cant": "all sets of roles, strings and lists of records", "anchors": ["libsepol/src/users.c:sepol_user_modify", "libsepol/src/booleans.c:sepol_bool_set", "libsepol/src/context.c:context_is_valid", "libsemanage/src/policy_components.c:clear_obsolete", "libsemanage/src/policy_components.c:load_records"]}
{"id": "C103", "title": "Restoring the labels of files gives them the labels of the specification", "statement": "After selinux_restorecon each file that is reached, is not excluded and has a context in the specification has exactly that context if it had none or if this is forced, keeps its own if its type is customizable, and else has the type (on demand user and role) of the specification and its own range; every other file keeps its label; the call fails exactly if a file fails; with nochange nothing at all changes, and the messages are those of the call that does change; the same call again changes and says nothing; of several names of a file the first with a context counts; digests of directories are written exactly after success.", "quantifier": "all trees of files, labels, specifications, flags and failures of system calls", "why_tests_cant": "unboundedly many files, names and labels in any tree", "anchors": ["libselinux/src/selinux_restorecon.c:selinux_restorecon_common", "libselinux/src/selinux_restorecon.c:selinux_restorecon_thread", "libselinux/src/selinux_restorecon.c:restorecon_sb", "libselinux/src/selinux_restorecon.c:compare_portions", "libselinux/src/selinux_restorecon.c:filespec_add", "libselinux/src/is_customizable_type.c:is_context_customizable"]}
{"id": "C104", "title": "What is excluded from labelling is what the caller and the mounts say", "statement": "Adding a directory to the exclusions excludes it and everything below it, with or without slashes at the end of its name, and nothing else; after a list of them exactly these are excluded besides; after looking at the mounts, what the caller excluded still is, a mount point is excluded if the last mount there has no labels, and nothing else changes.", "quantifier": "all lists of directories and of mounts, all paths", "why_tests_cant": "all lists in any order with repetitions", "anchors": ["libselinux/src/selinux_restorecon.c:add_exclude", "libselinux/src/selinux_restorecon.c:remove_exclude", "libselinux/src/selinux_restorecon.c:check_excluded", "libselinux/src/selinux_restorecon.c:exclude_non_seclabel_mounts", "libselinux/src/selinux_restorecon.c:selinux_restorecon_set_exclude_list"]}
{"id": "C105", "title": "Restoring labels with several threads gives the labels of one thread", "statement": "Whatever the number of threads and the order of their steps, when selinux_restorecon_parallel ends the labels are those that one thread would have given, and it fails exactly if one thread would have.", "quantifier": "all schedules of any number of threads, all trees, labels and failures", "why_tests_cant": "the number of schedules is exponential in the number of files", "anchors": ["libselinux/src/selinux_restorecon.c:selinux_restorecon_parallel", "libselinux/src/selinux_restorecon.c:selinux_restorecon_thread", "libselinux/src/selinux_restorecon.c:restorecon_sb", "libselinux/src/selinux_restorecon.c:filespec_add"]}
{"id": "C106", "title": "What a thread reads of its own contexts is what the kernel holds", "statement": "After any history of calls of get*con and set*con by any threads, of new threads, forks and programs started, a get*con call gives the context the kernel holds for the calling thread and a set*con call that succeeds leaves the kernel with what was given (also when the library wrote nothing because it thought it was there already), one that fails leaves it as it was; other attributes and threads are not touched.", "quantifier": "all histories of calls, threads, forks and execs; all kernels and failures", "why_tests_cant": "the library keeps values per thread: histories are unbounded and the error shows only later", "anchors": ["libselinux/src/procattr.c:getprocattrcon_raw", "libselinux/src/procattr.c:setprocattrcon_raw", "libselinux/src/procattr.c:setprocattrcon", "libselinux/src/procattr.c:getprocattrcon"]}
{"id": "C107", "title": "Translations that are kept do not show", "statement": "Each call of selinux_trans_to_raw_context, selinux_raw_to_trans_context or selinux_raw_context_to_color gives what the translation daemon says for this string; without an answer contexts are given as they are. What is kept from earlier calls changes nothing.", "quantifier": "all histories of calls in all threads, all daemons", "why_tests_cant": "histories are unbounded", "anchors": ["libselinux/src/setrans_client.c:selinux_trans_to_raw_context", "libselinux/src/setrans_client.c:selinux_raw_to_trans_context", "libselinux/src/setrans_client.c:selinux_raw_context_to_color", "libselinux/src/setrans_client.c:init_context_translations"]}
{"id": "C108", "title": "Setting a list of booleans is all or nothing", "statement": "security_set_boolean_list returns 0 exactly if each name stands for a boolean that can be set and the commit works; then each boolean in the list is active with the value of its last entry and no other changes. If it returns -1 no boolean has changed and nothing is left pending.", "quantifier": "all lists, all sets of booleans, names, permissions and failures", "why_tests_cant": "lists and states are unbounded; failures can happen at any entry", "anchors": ["libselinux/src/booleans.c:security_set_boolean_list", "libselinux/src/booleans.c:rollback", "libselinux/src/booleans.c:security_set_boolean", "libselinux/src/booleans.c:security_get_boolean_active", "libselinux/src/booleans.c:security_get_boolean_pending", "libselinux/src/booleans.c:bool_open"]}
{"id": "C109", "title": "Old names of booleans are replaced as the file says", "statement": "selinux_boolean_sub gives the second word of the first line of the file of substitutions whose first word is the name (comments and lines of one word do not count), and the name itself if there is none or the word has a slash; it reads nothing but the file.", "quantifier": "all files, all names", "why_tests_cant": "files are unbounded; the buffer holds what lines before have left", "anchors": ["libselinux/src/booleans.c:selinux_boolean_sub"]}
{"id": "C110", "title": "A compiled file_contexts file is as good as its source", "statement": "Every file of specifications that selabel_open loads as text, sefcontext_compile can compile (with and without serialized regular expressions), and selabel_open loads the result, whatever version of PCRE it is linked with: every lookup then gives the same context as with the text file.", "quantifier": "all files of specifications, all paths, modes and regex engines, all versions of PCRE, both settings of the compiler", "why_tests_cant": "files are unbounded; sizes, orders and string lengths combine freely", "anchors": ["libselinux/utils/sefcontext_compile.c:write_binary_file", "libselinux/utils/sefcontext_compile.c:write_spec_node", "libselinux/src/label_file.c:load_mmap", "libselinux/src/label_file.c:load_mmap_spec_node", "libselinux/src/label_file.c:load_mmap_literal_spec", "libselinux/src/label_file.c:load_mmap_regex_spec", "libselinux/src/regex.c:regex_load_mmap", "libselinux/src/regex.c:regex_writef"]}
{"id": "C111", "title": "Loading a compiled file never reads outside of it", "statement": "Whatever bytes a compiled file_contexts file has, selabel_open reads nothing outside of the mapping: it is loaded or refused.", "quantifier": "all byte strings, all versions of PCRE", "why_tests_cant": "the reader must be safe for every forged or damaged file", "anchors": ["libselinux/src/label_file.h:next_entry", "libselinux/src/label_file.c:load_mmap", "libselinux/src/label_file.c:load_mmap_ctxarray", "libselinux/src/label_file.c:load_mmap_spec_node", "libselinux/src/regex.c:regex_load_mmap"]}
{"id": "C112", "title": "A compiled file that is accepted gives a proper tree", "statement": "If selabel_open accepts a compiled file, the file starts with the magic number and the current version, the tree is at most 32 levels deep, the children of each node are in strict order, no node but the root is empty, every specification has a regular expression that is a non-empty string and a prefix length within it, and every context is <<none>> or was accepted by validation.", "quantifier": "all byte strings", "why_tests_cant": "the reader must establish what lookups rely on for every forged or damaged file", "anchors": ["libselinux/src/label_file.c:load_mmap", "libselinux/src/label_file.c:load_mmap_spec_node", "libselinux/src/label_file.c:load_mmap_ctxarray"]}
{"id": "C113", "title": "A handle with several files answers as all their lines say", "statement": "selabel_open reads the main file, the file for home directories and the local file, each as text or compiled. If each of them can be loaded alone, the handle can be opened, and a lookup answers as the lines of all the files in this order say: a line that names the path, else the last matching expression. It does not matter which of the files are compiled.", "quantifier": "all lists of files, all mixtures of text and compiled files, all versions of PCRE, all paths, kinds of files and regex engines", "why_tests_cant": "the merged tree depends on how the directories of all the files overlap; mixtures are unbounded", "anchors": ["libselinux/src/label_file.c:merge_mmap_spec_nodes", "libselinux/src/label_file.c:load_mmap", "libselinux/src/label_file.c:process_file", "libselinux/src/label_file.c:init", "libselinux/src/label_file.h:compare_spec_node"]}
{"id": "C114", "title": "Comparing two handles says how their specifications relate", "statement": "selabel_cmp of two handles opened from files of specifications gives SELABEL_EQUAL exactly if the specifications of each are among those of the other, SELABEL_SUBSET exactly if only those of the first are among those of the second, SELABEL_SUPERSET exactly if only those of the second are among those of the first, else SELABEL_INCOMPARABLE. A handle is equal to itself, and lookups with equal handles give the same contexts.", "quantifier": "all pairs of lists of files", "why_tests_cant": "the trees are unbounded, and the result combines orders, repetitions and directories of both files", "anchors": ["libselinux/src/label_file.c:cmp", "libselinux/src/label_file.c:spec_node_cmp", "libselinux/include/selinux/label.h:selabel_cmp"]}
{"id": "C115", "title": "The labels of media, X and database objects are those of the first line that applies", "statement": "selabel_open for media, X and database objects can load every file, and writes only inside of its array. selabel_lookup then gives the context of the first line that names the medium or *, or of the first line of the type of the object whose pattern matches the name, and ENOENT if there is none. Comments and lines that are not complete do not count.", "quantifier": "all files, all names and types, all ways fnmatch may answer", "why_tests_cant": "files are unbounded; the array is allocated by counting in a first pass that does not check as much as the second, or grows", "anchors": ["libselinux/src/label_media.c:process_line", "libselinux/src/label_media.c:init", "libselinux/src/label_media.c:lookup", "libselinux/src/label_x.c:process_line", "libselinux/src/label_x.c:init", "libselinux/src/label_x.c:lookup", "libselinux/src/label_db.c:process_line", "libselinux/src/label_db.c:db_init", "libselinux/src/label_db.c:db_lookup"]}
{"id": "C116", "title": "matchmediacon gives the context of the first line for a medium", "statement": "Whatever the file of media contexts is, matchmediacon gives the context of the first line whose first word is the medium, fails if there is none or the line has no context, and touches no memory outside of its buffer.", "quantifier": "all files, all names of media", "why_tests_cant": "files and lines are unbounded; lines are read into a buffer of fixed size", "anchors": ["libselinux/src/matchmediacon.c:matchmediacon"]}
{"id": "C117", "title": "The users of a store are joined from both files by name", "statement": "semanage_user_list_local gives each user of the file of roles and ranges and of the file of prefixes once, with the data of its name from both; what is missing is an empty list of roles, no level and range, and the prefix user. Users that are written are read back with the same data, whatever was there before, and nothing is written if nothing was changed.", "quantifier": "all contents of both files, all correct sorts, all lists of users", "why_tests_cant": "the merge depends on how the names of both files interleave; files are unbounded", "anchors": ["libsemanage/src/database_join.c:dbase_join_cache", "libsemanage/src/database_join.c:dbase_join_flush", "libsemanage/src/user_record.c:semanage_user_join", "libsemanage/src/user_record.c:semanage_user_split", "libsemanage/src/user_record.c:semanage_user_set_name"]}
{"id": "C118", "title": "The mode and the policy type are those the configuration file says", "statement": "selinux_getenforcemode gives the mode of the first line SELINUX= with a mode of the configuration file, and fails if there is none. selinux_getpolicytype gives the type of the last line SELINUXTYPE=, without the white space around it, or targeted if there is none, and selinux_policy_root is the directory of this type. getseuserbyname requires an entry for the user if and only if REQUIRESEUSERS is set.", "quantifier": "all contents of the configuration file", "why_tests_cant": "files are unbounded; which line counts depends on all of them", "anchors": ["libselinux/src/selinux_config.c:selinux_getenforcemode", "libselinux/src/selinux_config.c:init_selinux_config", "libselinux/src/selinux_config.c:selinux_getpolicytype", "libselinux/src/selinux_config.c:setpolicytype"]}
{"id": "C119", "title": "The contexts of home directories are those of the template", "statement": "When a policy is built, file_contexts.homedirs has, for each directory of home directories, each line HOME_ROOT of the template for the directory and each line HOME_DIR for all users in it, and for each user each line HOME_DIR and USER of the template, with the placeholders replaced by the data of the user and the context made one of the user. Only lines with a valid context are written. Replacing touches no memory outside of its buffer.", "quantifier": "all templates, users, directories and contexts", "why_tests_cant": "templates and users are unbounded; the size of the buffer is computed with numbers that wrap around, from occurrences that may overlap", "anchors": ["libsemanage/src/utilities.c:semanage_str_replace", "libsemanage/src/genhomedircon.c:replace_all", "libsemanage/src/genhomedircon.c:extract_context", "libsemanage/src/genhomedircon.c:write_contexts", "libsemanage/src/genhomedircon.c:write_replacements", "libsemanage/src/genhomedircon.c:write_context_file"]}
{"id": "C120", "title": "The request for the context of a new object says what was asked", "statement": "security_compute_create_name_raw sends the two contexts, the class and the name of the new object to the kernel, such that the kernel reads the same name from it, whatever bytes the name has; requests for different contexts or names are different. If the request does not fit into a page, the call fails with EOVERFLOW (contexts and class) or ENAMETOOLONG (name), and no memory outside of the page is written.", "quantifier": "all contexts, classes and names, all sizes of pages", "why_tests_cant": "the name takes up to three bytes for each of its bytes; the space that is left is computed with numbers that wrap around", "anchors": ["libselinux/src/compute_create.c:object_name_encode", "libselinux/src/compute_create.c:security_compute_create_name_raw"]}
{"id": "C121", "title": "security_compute_user gives the contexts the kernel answers with", "statement": "If the kernel answers with a list of contexts, security_compute_user_raw gives these contexts, all of them and in the same order. Whatever the answer is, no memory outside of the page and the array is used.", "quantifier": "all answers of the kernel, all sizes of pages", "why_tests_cant": "answers are unbounded and not checked; the number of contexts is read from the answer", "anchors": ["libselinux/src/compute_user.c:security_compute_user_raw"]}
{"id": "C122", "title": "A type is secure or customizable exactly if the file lists it", "statement": "selinux_check_securetty_context succeeds exactly if the type of the context is the first word of a line of the file of secure terminals. is_context_customizable says yes exactly if the type is a line of the file of customizable types. Neither touches memory outside of its buffer.", "quantifier": "all files, all types, all sizes of pages", "why_tests_cant": "files and lines are unbounded; lines are read into buffers and cut", "anchors": ["libselinux/src/selinux_check_securetty_context.c:selinux_check_securetty_context", "libselinux/src/is_customizable_type.c:customizable_init", "libselinux/src/is_customizable_type.c:is_context_customizable"]}
{"id": "C123", "title": "The access decision is the one the kernel prints", "statement": "security_compute_av_flags_raw gives the numbers that the kernel answers with: the permissions that are allowed, decided and audited, the sequence number and the flags, which are 0 if the kernel prints none. An answer with fewer numbers is an error.", "quantifier": "all decisions, all sizes of pages", "why_tests_cant": "decisions have six numbers of 32 bits each", "anchors": ["libselinux/src/compute_av.c:security_compute_av_flags_raw"]}
