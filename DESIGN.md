# Formal model of SELinuxProject/selinux in Lean 4 — design

## 1. Approach

The C code in /repo is modelled by hand, function by function, as small total
Lean 4 functions under `lean/Verif/<Area>/`. Each area has

* `Model.lean`  – the code: one definition per C function, with a comment citing
  file and lines and stating every simplification;
* `Spec.lean`   – (where the property needs one) a small specification that does
  not mention the model's helpers: sets, maps, expression trees, event histories;
* `Lemmas.lean` – helper lemmas and invariants;
* `Props.lean`  – the property theorems, each preceded by the English property
  and followed by an `example` exhibiting a concrete non-trivial instance of its
  hypotheses.

Modelling conventions:

* C pointers to heap structures become values; linked lists become `List`.
  Where aliasing or relinking is the point (doubly linked lists, recycled AVC
  nodes) a node store is modelled explicitly.
* Machine integers become `Nat` when the code's range checks make overflow
  impossible or irrelevant, and `BitVec n` where bit operations or wrap-around
  matter. Each use is noted.
* Undefined behaviour (NULL dereference, out-of-range index, deref of
  MAP_FAILED) is a distinct outcome (`none`/`Outcome.ub`), never a value.
* Potentially non-terminating C loops are modelled with fuel; the theorem then
  says which fuel suffices, or that no fuel suffices.
* Memory allocation is assumed to succeed unless the property is about failure
  (then the failure is a non-deterministic input).
* Locks are modelled only where the property is about schedules.

If the code violates a property, the file contains (a) a theorem with a concrete
witness refuting the full statement about the model, and (b) the strongest
positive theorem found, suffixed `_partial`. Disagreements are listed in §4.

## 2. Trusted base

* Lean 4.33.0's kernel. Axioms used: at most `propext`, `Classical.choice`,
  `Quot.sound` (checked with `#print axioms`, see §5). No axioms of our own, no
  `sorry`/`admit`, no `native_decide`/`bv_decide`.
* The faithfulness of the hand-written model with respect to the cited C lines.
* The statements and specifications (Spec.lean / Props.lean).
* Not modelled: the C memory allocator, compiler, libc, kernel, the policy
  language parsers (yacc/lex), PCRE, printf-based diagnostics, reference counts
  of freed memory; see the per-area notes.

## 3. Per-property plan

| id | what is modelled | how it is proved |
|----|------------------|------------------|
| C01 | `ebitmap_init/get_bit/set_bit/init_range` over lists of (startbit, 64-bit map) nodes | invariant (sorted, aligned, non-zero, highbit) by induction on the node list; refinement to a function `bit → Bool` over op lists |
| C02 | `ebitmap_or/union/and/xor/not/andnot` merge loops | induction on the merge; `not` with fuel: termination for maxbit ≤ 2^32-64, divergence otherwise |
| C03 | `ebitmap_cmp/contains/match_any/cardinality/hamming_distance/highest_set_bit` | canonicity: equal sets ⇒ equal node lists; counting lemmas |
| C04 | the iteration macros as state machines | induction; produced list = filtered range |
| C05 | `ebitmap_read`, `ebitmap_write` over byte lists | parser invariant; round trip by induction |
| C06 | `avtab_insert/search/insert_nonunique/search_node/_next` with chains per bucket and an abstract hash (murmur hash defined too) | sorted-chain invariant; refinement to the list of inserted rules |
| C07 | same | same |
| C08 | `mls_level_*`, `mls_range_*`, on ebitmaps | via C03 |
| C09 | `policydb_context_isvalid`, `mls_context_isvalid` | unfold against a declarative spec |
| C10 | `mls_sid_to_context`, `mls_context_to_sid` on character lists | run-compression lemma + parser inversion |
| C11 | `context_to_string`, `context_from_string`, `sepol_context_from_string` | string splitting lemmas |
| C12 | `cond_evaluate_expr` on postfix lists, 10-deep stack | compile-tree induction |
| C13 | `evaluate_cond_node`, `evaluate_conds` | invariant over histories |
| C14 | `cond_normalize_expr` | table lemma; state restoration |
| C15 | `cond_expr_equal` | refuted (order of booleans), partial theorem for equal order |
| C16 | `context_struct_compute_av`, `cond_compute_av`, `type_attribute_bounds_av` | pointwise on permission bits |
| C17 | `constraint_expr_eval_reason` | tree induction |
| C18 | same, with error returns | refuted (stack underflow returns non-zero), partial |
| C19 | `sepol_compute_sid`, `mls_compute_sid` | case analysis against spec |
| C20 | sidtab | invariant over histories |
| C21 | `sepol_load_policy` | refuted, partial |
| C22 | `policydb_optimize` | per-step decision preservation |
| C23 | `assertion.c` | soundness/completeness of `check_assertion`; refuted for `{t self}` in the reporting path |
| C24 | `hashtab.c` | refinement to association list, over histories |
| C25 | `sepol_*_sid` lookups | first-match lemmas; genfs sorting |
| C26–C29 | `avc.c` cache as node store + buckets | invariants over histories |
| C30 | reader/writer interleavings of the status page | inductive invariant over schedules |
| C31 | `avc_sidtab.c` | invariant over histories |
| C32 | `context_new/str/set_comp` | string lemmas; exact failing set for round trip (trailing ':') |
| C33 | `mapping.c` | bitwise |
| C34 | `sha1.c` | buffer invariant; block-function equality with a FIPS-style spec |
| C35 | `database_llist.c` | doubly-linked-list invariant |
| C36–C37 | `semanage_commit_sandbox` and its file operations as programs over a file system, one step per system call, every call may fail | a Hoare logic with a postcondition and an invariant for all intermediate states; refuted cases by concrete runs |
| C38 | `database.c` lock protocol | refuted (lock kept when `cache` fails), partial |
| C39 | `FcSort`: semanage_fc_sort on bytes | grammar, specificity and stable sort as specification; bounds-checked memory |
| C40–C41 | `avtab_read(_item)`, `avtab_write(_item)` over byte lists (new format) | parser invariant; round trip by induction |
| C42 | `mls_compute_context_len` and the allocation in `context_to_string` | induction over the visited bits, next to C10 |
| C43–C44 | `mls_range_glblub`, `mls_setup_user_range` | case analysis on dominance |
| C45 | `mls_convert_context` | induction over the categories |
| C46 | `cond_optimize(_lists)` | closed form of the list algorithm |
| C47 | `cond_node_copy`, `cond_node_map_bools`, `cond_node_search` | refuted (double negation, wrong merge); partial theorem from C14/C15 |
| C48 | `sepol_load_policy` after parsing, `convert_context`, sidtab map functions | invariant; lookup of the new table = lookup of the old table followed by conversion |
| C49 | same | true over one reload; refuted over two by a witness |
| C50 | same as C16 | characterisation of each bit through the attribute loops and both tables |
| C51 | same as C16 | stage by stage; refuted for the bounds reason |
| C52 | sepol_get_user_sids loops, SID table | loop invariant: SIDs listed so far name the enterable contexts met so far |
| C53 | `Avc`: `avc_compute_create` | cache transparency for create decisions over all histories |
| C54 | `Avc`: `avc_audit` | bitwise characterisation of when and what is audited |
| C55 | `Mapping`: stringrep.c and checkAccess.c over a list of kernel classes | lookup lemmas on names, refutations by witness |
| C56 | `Sha`: sha256.c, with a specification written from FIPS 180-4 | the compression function equals the one of the standard; invariant over update histories; table of constants checked against cube roots of primes |
| C57 | `Checksum`: semanage_compile_hll_modules, checksum comparison, the rebuild decision | injectivity of the length-prefixed encoding, sort as a unique permutation, two-commit histories, refutation by witness |
| C58 | `Dbase`: database.c, database_file.c, handle.c and the transaction functions of direct_api.c over the pointer-level list of C35 | invariant relating store, sandbox, cache and its serial to the view of the caller, over all histories; refutations by witness |
| C59 | same | invariant over all histories; refutation by witness |
| C60 | The tree of specifications, its construction from the lines, sorting by any sorting function, the search and the lookup, function by function; the regular-expression engine is a parameter. | Invariant: each node holds the specifications whose fixed directories (at most three) lead to it, in order; the binary searches find the first equal element; the walk up the tree combines the expressions by the order of files and lines. |
| C61 | As C60. | Removing repeated slashes and a trailing slash gives the normal form of the path. |
| C62 | selabel_apply_subs and its use. | Induction over the list. |
| C63 | lookup_best_match. | Induction over the list of results. |
| C64 | As C60 with partial matching. | Membership in the node's lists; counterexample by evaluation. |
| C65 | read_spec_entry(ies), process_line on bytes. | Words of a line as a small specification; induction over the bytes. |
| C66 | selabel_subs_init with its buffer as a list of possibly undefined bytes. | Loop invariant over the lines; counterexamples by evaluation. |
| C67 | libsepol/src/hierarchy.c on the rule tables of the model of the access vector tables: the expansion of the rules of the bounding type into tables, the rules common to both branches of a conditional, the comparison. | The tables hold exactly the expanded rules (induction over the lists of rules and targets); acceptance is characterised by rules (Accepts) and implies the claim under every value of the booleans. |
| C68 | hierarchy_add_bounds, bounds_check_roles, bounds_check_users, hierarchy_check_constraints on symbol tables. | Induction over the tables; ebitmap_contains by C03. |
| C69 | enable_avrules and what it calls in libsepol/src/link.c, on the scope tables, blocks and declarations of the linked policy. | The loop keeps every set that supports itself (induction over the passes); it ends because each pass but the last switches a body off; the last pass shows that all requirements of the rest are met. |
| C70 | populate_roleattributes and expand_role_attributes on the model of the bitmaps. | A weight in base n+1, by the depth of the attributes, decreases with each scan; the plain roles within the set stay the same. |
| C71 | The evaluation of expressions in libsepol/cil/src/cil_post.c, with the bitmaps stored in the symbols as a memo, on the bitmap model. | Denotational semantics of expressions; induction on the rank of the references and on the expression, with the invariant that what is stored agrees with the meaning. The check for self-reference is a depth-first search along a path; it ends because the path has no repetition. |
| C72 | The merging of order statements in libsepol/cil/src/cil_resolve_ast.c and the check of the result in cil_verify.c. | Invariant: the flags are those of the symbols in the list, the list has no symbol twice and the merged statements are subsequences. The check is shown to accept exactly the lists all of whose neighbours are neighbours in some statement; such a list is the only one that agrees with the statements. |
| C73 | The comparison functions of the context rules and __cil_post_process_context_rules in libsepol/cil/src/cil_post.c. | Each comparison function is shown to be a total preorder whose ties are the rules for the same object. Invariant of the loop: the rules kept are strictly sorted, each rule seen has a kept one that compares equal, and no error has been reported exactly if all ties seen had equal contexts. |
| C74 | libsepol/cil/src/cil_deny.c and the search for matching rules in cil_find.c, on the bitmap model. | Lists of class permissions are flattened to sets; each function on them is a set operation, by mutual induction. Each case of self/notself/other/attribute is reduced to a statement about sets of pairs of types. Induction on the rules and the deny rules. |
| C75 | libsepol/cil/src/cil_binary.c from declarations of types and attributes to the unconditional and conditional tables of rules, on the models of ebitmap.c, avtab.c and the decision loop of services.c. | An invariant that relates both tables and the lists of each branch to a set of (branch, key, bit); each function adds exactly the bits of the pairs it is for. Then the type map is shown to have a bit exactly for the attributes of a type, and the decision loop (C18) finds a bit exactly if some rule covers the types. |
| C76 | The same model: `__cil_insert_type_rule` and its callers. | The same invariant with a set of (branch, key, result). A list of requests (one for each pair of types and class) is processed; an invariant over the requests says what each branch has, and that keys with requests on one side only agree. |
| C77 | The second half of the rules of libsepol/cil/src/cil_binary.c: tables of bitmaps, and blocks of 256 numbers. | Bits of a block are related to numbers; an invariant over the loop says which numbers are in blocks and where the current range starts. Then, as for C75, each function adds exactly the (branch, key, kind, number) it is for. |
| C78 | Expressions from the parse tree to the list of items, names, the value of a tunableif, postfix tokens, the check of the depth, and cil_booleanif_to_policydb on top of the models of C14 and C15. | Expressions of the language are a datatype with a writing and a meaning. Reading is inverted by induction on trees; conversion and evaluation are by induction on expressions; the sequence of statements keeps the invariant that each conditional is normalised, lists its booleans in the order of the text, and comes from a statement. |
| C79 | Reading the expressions of constraints, names, the postfix list, the check of its depth, and the lists of constraints of classes, on top of the evaluator of C17. | Expressions of the language are a datatype with a writing and a meaning; reading is inverted by induction on trees. The list of the policy is shown to be the postfix form of a tree that holds exactly if the expression does. The lists of constraints keep the invariant that each element comes from a statement and each permission a statement lists has an element. |
| C80 | The lexer's rules as a function from texts to tokens, and the loop of the parser over tokens with the stack of open nodes. | A grammar of texts is an inductive relation. One direction is an induction on the grammar, the other on the length of the text with the open lists on a stack; the limit of depth and safety are invariants of the loop. |
| C81 | The stack of texts of cond_expr_to_str and constraint_expr_to_str, with ebitmap_to_str and its sort. | Induction on the expression whose postfix form is converted, with the grammar of C80 for what a text writes and the meanings of C78 and C79 for what it says. |
| C82 | The two passes over the categories, for the length of the buffer and for the text, in both converters. | Runs of a sorted list of bits; a loop invariant says what the passes have done and that the second fits the buffer of the first. |
| C83 | avtab_node_to_str with the loops over permissions and over the 256 bits of extended permissions, the table by flavours, conditionals with any qsort. | Each node has one kind, so that the nine filters partition the table; texts by the grammar of C80, meaning by the facts of C13 and the values of C14. |
| C84 | All of policydb_validate.c that a kernel policy meets, and the index functions of policydb.c; a hash table is the list of its entries. | Each check is shown equivalent to a predicate over the entries of the tables; the gap bitmaps by C01 and C03, expressions by one lemma about postfix forms with a depth counter; then the chain of checks is the conjunction. |
| C85 | type_set_expand, map_ebitmap and expand_convert_type_set over the bitmaps of C01 to C04. | Each loop is a fold that adds bits; the invariant says which bits the result has so far. |
| C86 | convert_and_expand_rule and everything below it; a table is the list of its nodes, newest first, by C06, C07 and C40; a branch of a conditional is a number. | For each query (is there a node of the place with this key and this property?) each step adds exactly what the rule says; lifted over classes, pairs, rules and conditionals by one lemma; pairs of the expanded sets are then linked to the types by C85. |
| C87 | As for C86, with expand_terule_helper. | An invariant of the two tables: one node for a key and a place, none in both tables, and only the two branches of one conditional share a key. |
| C88 | policydb_write and policydb_read for kernel policies, part by part, over lists of bytes; bitmaps and rule tables from C04, C05, C40, C41; validation from C84. | For each part, reading what was written and then anything yields the part and the rest; composed part by part. The result is compared with `held p`, what the format of a version holds. |
| C89 | The same reader. | For each part a lemma says what holds if it was read; the tables by an invariant of the loop that fills them. |
| C90 | The same reader. | Each part consumes a prefix and does not depend on the rest; closed under the combinators of which the reader consists. |
| C91 | policydb_filetrans_insert and the loops around it in expand.c, cil_binary.c and checkpolicy. | An invariant of the table (distinct keys, distinct types of an entry, sources present) over any list of rules; what it says is characterised by the rules so far. |
| C92 | seusers.c over the bytes of the files; membership of groups is a parameter. | Lines and entries have an independent inductive specification; the loop is shown to pick the first entry of each kind by induction on the entries. |
| C93 | get_context_list.c over the bytes of the three files, with context_new and its relatives from C32; the answers of the kernel are a parameter. | The words of the line that is found are specified independently; the list is then the filtered, deduplicated list of contexts for the words, by induction on the words. |
| C94 | get_default_type.c with fgets on a buffer of 250 bytes. | Induction on the lines of the file. |
| C95 | parse_utils.c and the printing and parsing functions of each kind of records as functions on bytes; dbase_file_flush and dbase_file_cache as the loops over them. | A lemma for each primitive on a known text, a lemma for each kind of record, and one induction over the records for all kinds. |
| C96 | The same; a read through NULL or behind the last NUL of the buffer is a distinct outcome. | Each claim is a property of parsers that the primitives have and sequencing keeps; it then holds for each parser by its structure. |
| C97 | The directories of the module store as a tree of priorities, names and files; installing, removing, switching, compiling, extracting, listing and the rebuild of semanage_direct_commit as functions on it. | A relation between the tree and an abstract store, kept by every operation; the cached compilation in it is always that of the present text. The list of active modules by induction over the list that is sorted by priorities. |
| C98 | The same, and the checks of names in modules.c. | From the same relation; the checks of names by induction over the string. |
| C99 | The functions of policy_define.c from the words of the list to the blocks of 256 bits. | Each pass keeps the set of numbers: sorting is a permutation, merging and inverting by induction over lists of ranges that are apart, the blocks by folds that set bits. |
| C100 | The functions of policy_define.c for object contexts, as functions from the lists of the policy to new ones, on machines of either byte order; the server is that of C25. | Invariant over the statements: every list is that of the entries of the statements so far (sorted by mask for nodes, by length for genfs). Acceptance by induction over the statements; replies by the theorems of C25. |
| C101 | The modify functions of libsepol for ports, nodes, interfaces and Infiniband objects, load_records, and the validate functions of libsemanage; qsort is any function whose result is a sorted permutation. | Closed form of the merged lists; first match in an append; the last of a sorted list is best. The validate loop by induction over the sorted list. Replies by the theorems of C25. |
| C102 | sepol_user_modify with its in-place writes, sepol_bool_set, clear_obsolete and load_records. | Induction over the roles and over the records. |
| C103 | selinux_restorecon_common with one thread over the tree that fts_read gives, restorecon_sb, compare_portions, filespec_add, digests; the lookup (C60), the translation of contexts and which system calls fail are parameters. | The walk is a run over the list of files to be labelled (mutual induction over the tree); the table of inodes drops all but the first of each inode (invariant of the buckets); a run over different files does to each what the rule for one file says, which follows from the theorems on contexts (C32). |
| C104 | add_exclude, remove_exclude, check_excluded, the loop over /proc/mounts, selinux_restorecon_set_exclude_list. | Induction over the lists, invariant: absolute paths without slashes at the end, each once. |
| C105 | Threads as interleavings of the steps lookup, get label, set label of each file, in any order. | Invariant over all schedules that says for each file, by how far it is, what its label is. |
| C106 | getprocattrcon_raw, setprocattrcon_raw and the translated forms over threads, forks and execs; the kernel's treatment of values and failures of files are parameters. | Invariant over all histories: what is kept for a thread is what the kernel holds. |
| C107 | The three functions of setrans_client.c with their variables per thread and has_setrans per process; the exchange with the daemon is a function that can change at any time. | Invariant: what is kept is an answer of one of the daemons there were. |
| C108 | booleans.c: bool_open, get, set, commit, rollback, set list; permissions and failures are parameters. | The pending values after part of the list are a function of that part (induction); rollback sets those and only those back. |
| C109 | selinux_boolean_sub on the buffer of getline byte by byte, with what earlier lines left in it and reads of memory never written as an outcome. | A line with its newline is split into words in one way; the loops find this split whatever is behind in the buffer. |
| C110 | sefcontext_compile's writer and load_mmap's reader byte by byte, on the trees of the FileLabel area; serialized regular expressions and PCRE's reading of them are parameters. | For each writer a lemma that the reader consumes exactly its bytes; an invariant of loading text files gives the sizes, orders and depth the reader demands. |
| C111 | The reader on any bytes, with reading outside of the mapping as an outcome. | Each step of the reader leaves a suffix of the file and reads within it (composition over the monad). |
| C112 | The same reader. | Postconditions of each step, induction over the depth. |
| C113 | merge_mmap_spec_nodes and the loop over the files in init, on the trees of the FileLabel area and with the reader of C110. | The specifications at each path of a merged tree are those of both trees, in order (induction over the levels, the loop over sorted children by induction over both lists). Invariant over the files: the tree holds exactly the entries of the lines so far, the literals in any order. Then the lookup theorem of C60, generalised to literals without line numbers. |
| C114 | selabel_cmp for file contexts, on the trees of the FileLabel area. | Soundness: by induction over the levels, a result that is not superset means that the keys at every path are sublists of those of the other tree (and the reverse). Completeness: for sorted literals and children and expressions in order, sublists are recognised by the three loops. Literals: counts and sorted lists; which nodes there are: invariant over the insertions. |
| C115 | The three backends: the lines, both passes over the file with the array and its bounds (media, X), the array that grows (databases), and the lookups. fnmatch is a parameter. | sscanf gives the first words (induction). Invariant of the second pass: the entries so far are the first ones of the array; there is room because the first pass counts at least as many. The lookup finds the first entry that applies (induction over the index). |
| C116 | matchmediacon with fgets into a buffer of PATH_MAX bytes. | For lines that fit, fgets gives a line; the parts of a line are unique; induction over the lines. |
| C117 | dbase_join_cache and dbase_join_flush with semanage_user_join and semanage_user_split, on lists of records. | For lists in strict order of names, membership in the result of the merge and its order by induction over both lists; a correct sort of distinct names is strict. Writing gives both lists of parts, which have the same names. |
| C118 | selinux_getenforcemode and init_selinux_config as functions of the bytes of the configuration file. | The lines fgets and getline give for a file of lines by induction; each line means what the specification says; the first or last of a list by induction. |
| C119 | semanage_str_replace with its buffer and numbers of 64 bits, replace_all, extract_context and the writers of genhomedircon.c over lists of lines. | The count, the size of the buffer and the text written, by induction over the occurrences; replacing is a relation with one result. Lines of the file by induction over the loops. |
| C120 | object_name_encode with its buffer and numbers of 64 bits, and the request that security_compute_create_name_raw writes. | The loop by induction over the name with the space that is left as invariant; decoding by induction, with all bytes checked by the kernel. |
| C121 | How security_compute_user_raw reads the answer: the page, sscanf of the number, the array and the loop over the strings. | The number by what its digits are; the loop by induction over the contexts, and over the zero bytes that are left. |
| C122 | Reading both files with getline and fgets, the first words, and the list of customizable types in two passes. | The reads are the lines, by induction over the lines; the first word is a relation between a line and a word. |
| C123 | How security_compute_av_flags_raw reads the answer, with sscanf of numbers to the bases 10 and 16. | What is printed is read back, by induction over the digits and over the numbers. |

## 4. Findings (code vs. property)

Places where the code does not have the property one would expect. Each has a
machine-checked witness about the model (theorem in parentheses).

* **F1** `ebitmap_not(dst, e, maxbit)` does not terminate for `maxbit > 2^32-64`
  (`Ebitmap.C02_not_diverges`).
* **F2** `mls_sid_to_context` prints wrong categories: `ebitmap_for_each_bit` jumps over
  empty 64-bit words without visiting an unset bit, so a run that ends at bit 63 of
  a word is continued in the next non-empty word. `{c62,c63,c128}` prints as
  `c62.c128`, which parses to 67 categories (`Mls.C10_wrong_categories`). The
  round trip is proved for sets without such a gap (`Mls.C10_round_trip_partial`),
  in particular for all sets of the first 128 categories.
* **F3** `context_from_string("<<none>>")` dereferences a NULL record
  (`Mls.C11_none_undefined`).
* **F4** `cond_evaluate_expr` ignores surplus operands: postfix `a b` evaluates to `a`
  (`Cond.C12_surplus_operands`).
* **F5** `evaluate_cond_node` trusts the recorded state: a policy file whose ENABLED bits
  disagree with `cur_state` keeps the wrong rules enabled (`Cond.C13_stale_flags_kept`).
* **F6** `cond_normalize_expr` returns -1 without restoring the booleans it has overwritten
  (`Cond.C14_error_clobbers`).
* **F7** `cond_expr_equal` compares truth tables without aligning the order of the booleans:
  `x && !y` and `y && !x` are judged equal (`Cond.C15_not_equivalent`), and expansion
  puts the rules of both under one condition (`Cond.C47_wrong_merge`).
* **F8** `cond_node_copy` normalises twice but copies the rules of the first normalisation: for
  a condition that still begins with two negations the branches are exchanged
  (`Cond.C47_double_negation`). Every front end normalises once itself, so the source needs
  three negations.
* **F9** `sepol_sidtab_insert` of SID UINT_MAX wraps `next_sid` to 0; SID 0 is then issued
  (`Sidtab.C20_wrap_refuted`).
* **F10** An initial SID loaded after conversions can change the SID returned for a context
  (`Sidtab.C20_late_insert_refuted`).
* **F11** `sepol_load_policy` destroys the *active* policy when the new image cannot be read
  (`Sidtab.C21_refuted`).
* **F12** `next_sid` is recomputed from the surviving SIDs on each reload, so a dropped SID is
  reissued after the second reload (`Sidtab.C49_refuted`).
* **F13** The error code of `constraint_expr_eval_reason` (-EINVAL for a missing operand) is not zero,
  so `context_struct_compute_av` and `sepol_validate_transition` treat a malformed constraint as satisfied
  (`Services.C18_malformed_refuted`). Loaded policies are protected by `validate_constraint_nodes`. Its
  error paths also scan `expr_list` up to a NULL that was never stored (uninitialised memory).
* **F14** Cyclic type bounds in a binary policy make `context_struct_compute_av` recurse for ever
  (`Services.C16_cyclic_bounds_refuted`).
* **F15** `SEPOL_COMPUTEAV_BOUNDS` is reported although every requested permission is granted, when the
  bound removes a permission that was not requested (`Services.C51_bounds_refuted`).
* **F16** `avkey.source_type = i + 1` truncates to 16 bits: types numbered 65536 and above alias smaller ones
  (excluded by `PolicyOk.attr`).
* **F17** `compute_sid_handle_invalid_context` (permissive mode) indexes the class name array with an unchecked
  class number (`Services.C19_permissive_refuted`).
* **F18** `sepol_fs_use` ignores why `sepol_genfs_sid` failed: with a full SID table it returns success and
  behavior NONE without writing the SID (`Services.C25_fs_use_refuted`).
* **F19** `sepol_get_user_sids` never initialises `usercon.range`; without MLS it is searched for and copied
  (`Services.C52_nonmls_refuted`). On a policy without the process class it returns an error together with an allocated array
  (`Services.C52_error_with_array`).
* **F20** **The optimiser trusts the type map to list only attributes.** `policydb_read` (policydb.c:4449-4481) and the validator (policydb_validate.c:1638-1656) accept a type map that lists a plain type `b` for a type `a`; every decision of the security server then applies rules on `b` to `a`. `policydb_optimize` builds its own map in which a plain type is covered only by its attributes' supersets and removes a rule on `b` covered by a rule on an attribute of `b`, although `a` does not have that attribute: `a` loses the permission. Theorem `C22_type_listed_as_attribute_refuted`; C22 is proved for policies whose map lists only the type itself and attributes, as every compiler writes it.
* **F21** **`neverallow a { b self }` does not forbid `allow a b`.** `check_assertion` finds the violation (assertion.c:762-776), but `report_assertion_avtab_matches` (assertion.c:404-405) skips every pair with different source and target when the rule has the self flag, so zero errors are counted and `check_assertions` returns 0; the policy is accepted. Theorem `C23_self_with_targets_refuted`. The same test (assertion.c:639-640) makes neverallowxperm rules ignore their other targets.
* **F22** **neverallowxperm rules: a conditional allow rule is reported although an unconditional allowxperm rule restricts it** (assertion.c:552-555 looks for extended permissions only in the same branch). Theorem `C23_conditional_false_report_refuted`. It errs on the safe side.
* **F23** **neverallowxperm rules: ioctl rules hide netlink message violations.** Any allowxperm rule sets `found_xperm` (assertion.c:485-491), although an ioctl rule does not filter netlink messages (services.c treats the kinds separately). Theorem `C23_nlmsg_refuted`.
* **F24** **The number of reports is converted to int and summed in an unsigned long** (assertion.c:448, 833): 2³² reports of one rule count as none. Stated as a hypothesis of `C23_assertions_partial`.
* **F25** **The first poll of the status page misses earlier changes.** `selinux_status_updated` (sestatus.c:118-119) only notes the sequence number when it is first called. A process that called `avc_open` while the system was permissive, and makes its first check after the switch to enforcing, keeps granting everything until the next change of the page. Theorem `C26_first_check_refuted`, for any number of checks.
* **F26** **A failing setenforce callback hides policy loads.** With AVC_OPT_SETENFORCE set to a mode different from the kernel's, every poll calls the SELINUX_CB_SETENFORCE callback; if it fails, the policy load below it is not processed (sestatus.c:132-139) and revoked permissions stay cached. Theorem `C26_callback_refuted`.
* **F27** **Two entries for one triple.** When the cached decision does not decide all requested permissions, `avc_has_perm_noaudit` inserts a second entry for the same triple (avc.c:790-801); `avc_update_cache` then changes only the newer one. Theorem `C28_duplicate_refuted`. (The functions `avc_ss_grant` and the like are not exported and have no caller in the library.)
* **F28** **A request for no permission is denied silently**: `avc_has_perm` with `requested == 0` fails with EACCES in enforcing mode (avc.c:811) and writes no message (avc.c:703-714). Part of `C26_denial` and `C54_failure`.
* **F29** **`avd_init` leaves `decided` uninitialised** (avc.c:737-744): after a failed query the caller's `struct av_decision` holds an indeterminate `decided`. Not expressible as a property of the model, which stores 0.
* **F30** **The seqlock readers lack a barrier.** `read_sequence` has a barrier after its load of `sequence` (sestatus.c:75) but none before it, so the loads of the fields may be executed after the second load of the number, by the compiler or by a weakly ordered machine: `selinux_status_updated` can then process a mode and a policy version that were never published together. Theorem `C30_barrier_refuted`. (With loads in program order the claim holds: `C30_updated_partial`.)
* **F31** **The sequence number wraps**: 2³¹ updates between two loads go unnoticed (`C30_wrap_refuted`). Listed for completeness only.
* **F32** **Fallback mode dereferences MAP_FAILED**: after an update seen through netlink, `selinux_status_updated` reads `selinux_status->enforcing` (sestatus.c:126) although `selinux_status == MAP_FAILED`. Not modelled: the netlink fallback is outside the model.
* **F33** **`context_new` loses an empty last component.** "u:r:" is accepted (the comment asks for three components), its type is NULL and `context_str` gives "u:r"; likewise "u:r:t:" gives "u:r:t" (context.c:63: the loop ends at the NUL after the colon). `C32_roundtrip_refuted`; exactly this case is the exception in `C32_roundtrip_partial`.
* **F34** **`context_str` after `context_user_set(con, NULL)` reads through NULL**: the setter accepts NULL for every component (context.c:179-195), but `component[0]` is copied unconditionally (context.c:132, 162), into a buffer whose size does not count it. `C32_str_refuted`.
* **F35** **A range with more than two colons** is accepted by `context_range_set` but the resulting string is rejected by `context_new` (hypothesis of `C32_reparse`).
* **F36** **`string_to_av_perm` only searches the cache** (stringrep.c:239): for a class that was never looked up by name it returns 0, "unknown", although the policy has the permission. `C55_undiscovered_refuted`.
* **F37** **The class cache is stale after a policy load** until something calls `selinux_flush_class_cache` (only the AVC does, when it is told of the load): a name then gives a number that may belong to another class. `C55_stale_refuted`.
* **F38** **A failed `selinux_set_mapping` removes the mapping in force** (mapping.c:43-45), so that an application that goes on uses its own numbers as kernel numbers. `C33_failure`.
* **F39** **`Sha1Update` overruns its buffer for arguments near 4 GiB**: `j + BufferSize` (sha1.c:172) is computed with 32 bits; after one byte, a call with 2^32-1 bytes takes the "fits" branch and copies them over the 64-byte buffer. `i + 63` (sha1.c:177) wraps likewise. `C34_digest_refuted`. The caller passes a size_t total (label_file.c) that is cut to 32 bits.
* **F40** **`semodule --refresh --ignore-module-cache` does not see changes of CIL modules**: with the cache ignored a module whose language is CIL is hashed neither from its file nor from a compiler (direct_api.c:1042, 900), so that after two such runs the checksum matches whatever the module contains, and the old linked policy is kept. `C57_detect_refuted`.
* **F41** **`dbase_llist_modify`/`_set` free the old record before they copy the new one** (database_llist.c:181-183, 212-214). When the copy fails the entry points to freed memory, which the next list, iteration or flush uses. `C35_refuted`.
* **F42** **After a failed `semanage_commit` the handle keeps returning records that were never committed**: only a failure to write the databases drops their caches (policy_components.c:241); after any other failure (e.g. the policy does not link) the cached records have the serial of the unchanged store. `C58_failed_commit_refuted`.
* **F43** **A transient failure to read the commit number discards the changes of a transaction without an error**: `dbase_llist_needs_resync` (database_llist.c:24-26) answers "reload" and `dbase_file_cache` empties the cache, `modified` included. `C58_lost_changes_refuted`.
* **F44** **`enter_ro` keeps the read lock when the records cannot be loaded** (database.c:39-46). No process can commit until the handle queries successfully; after disconnect and connect, which forget the descriptor (direct_api.c:156-157), never again while the process lives. `C38_refuted`, `C38_stuck`.
* **F45** **`semanage_begin_transaction` keeps the transaction lock when the sandbox cannot be made** (direct_api.c:408-421); disconnecting releases it only in a transaction (direct_api.c:369). `C59_refuted`.
* **F46** When the temporary directories cannot be removed, `semanage_disconnect` returns an error and the handle stays connected and in a transaction, with its databases freed (direct_api.c:368-405, handle.c:352). The model stops there (`disconnect` gives `none`).
* **F47** **`semanage_fc_find_meta` reads beyond the end of a path that ends in a backslash** (semanage_store.c:2461-2466: the index skips the terminating NUL). `C39_refuted`.
* **F48** **`semanage_fc_sort` drops an entry on a last line without a newline**, without an error (semanage_store.c:2562). `C39_last_line_refuted`.
* **F49** **A commit has a moment without an active store**: the active store is moved away before the sandbox takes its place (semanage_store.c:1777-1784). `C36_refuted`. After a crash there, the next `semodule` creates an empty store, throws the new one away and its commit removes the old one (semanage_store.c:532, 945, 1770): `C36_loss`.
* **F50** **The result of the removal after a copied directory is ignored unless it is -1** (semanage_store.c:747, 1777, 1784 against 842-862): a commit across file systems can succeed with a mixture of old and new files. `C36_mixture`; also `C36_exdev_refuted`.
* **F51** **A failed installation is not undone**: the rollback installs the files of the new policy again (semanage_store.c:1813), since the temporary final files are those of the new policy. `C37_refuted`.
* **F52** **A commit reports failure after everything has been committed** when a temporary directory or the backup cannot be removed (semanage_store.c:1819, direct_api.c:1655). `C37_store_refuted`.
* **F53** **An expression with a quantifier or an alternative after a slash is not found**: `/usr/?bin` is filed under `/usr/` and not tried for `/usrbin` (label_file.h:505-552, label_file.c:1803-1840). `C60_refuted`.
* **F54** **`<<none>>` in a deeper directory wins over later specifications** with fewer fixed directories (label_file.c:1676-1686 ends the lookup). `C60_none_refuted`.
* **F55** **A literal path in file_contexts.local does not replace the one of the base file**: equal literals of the same kind keep the order of qsort, with a stable one the first file wins (label_file.h:366-378, label_file.c:1554-1564). `C60_local_refuted`.
* **F56** **selabel_lookup_best_match loses matches without a fixed beginning** (`.*`) of other names when the path itself has no match: the length 0 is not greater than 0 (label_file.c, lookup_best_match). `C63_refuted`.
* **F57** **selabel_partial_match misses literals in deeper directories**: only the node of the path and its parents are searched. `C64_refuted`.
* **F58** **White space after a specification of two words makes read_spec_entries take a fourth variadic argument that was not passed** (label_support.c:97-114; `va_arg` comes before the test for the end of the line): undefined behaviour for every such line. `C65_refuted`.
* **F59** **selabel_subs_init reads beyond the end of the last line** if it has one word and no newline: the end of the word is stepped over even if it is the end of the string (label_file.c:1263-1370). `C66_refuted`, `C66_uninit_refuted`.
* **F60** **The check of type bounds takes audit rules for allow rules**: `bounds_expand_cond_rules` (hierarchy.c:126-144) adds the rules of a conditional of any kind (auditallow, dontaudit, type_transition) to the permissions of the bounding type, so a bounded type can get a permission that its bounding type does not have. `C67_refuted`.
* **F61** **The check of type bounds rejects policies that are within the bounds**: a permission of the bounding type in another conditional with the same condition does not count. `C67_exact_refuted`.
* **F62** **Linking reads an indeterminate value, or reports the wrong symbol, if a module requires a class that is not declared**: `is_decl_requires_met` (link.c) returns 0 for a class without filling in `req`, and `enable_avrules` prints it if the body is not optional. `C69_refuted`, `C69_report_refuted`.
* **F63** **The else branch of a nested optional statement is switched on although what it requires is not declared**: the compiler adds the requirements of the enclosing statements to it, `enable_avrules` does not check those of `else` branches. `C69_else_refuted`.
* **F64** **Cyclic role attributes hang the linker or make it read freed memory**: `expand_role_attributes` only detects a cycle through the attribute it expands; and clearing the bit of the attribute itself can free the node that the loop reads next. `C70_refuted`, `C70_freed_refuted`.
* **F65** **`(all)` over nothing stops the compilation**: in a policy without categories or users the expression `(all)` means the empty set, but `__cil_expr_to_bitmap` (cil_post.c) calls `ebitmap_init_range(0, max - 1)` with `max - 1 = 2^32 - 1` and fails. `C71_all_refuted`.
* **F66** **Whether CIL order statements are accepted depends on the order of the modules**: `__cil_ordered_lists_merge` puts new symbols before the first common symbol although later statements say otherwise, and cannot take that back. `(classorder (a c)) (classorder (b c)) (classorder (b a c))` is rejected; with the last statement first it is accepted. `C72_order_refuted`.
* **F67** **Two `filecon` rules for the same path, one of them `()`, crash the CIL compiler**: if multiple declarations are allowed (libsemanage allows them), `__cil_post_process_context_rules` (cil_post.c) calls `context_compare` with the contexts of both rules; the context of `()` is NULL (cil_build_ast.c, cil_gen_filecon) and is dereferenced. `C73_filecon_refuted`.
* **F68** **Context rules that differ in categories alone count as duplicates**: `cats_compare` (cil_post.c) returns 0 whenever both levels have categories, so `(portcon tcp 80 (u r t ((s (c0)) (s (c0)))))` and the same with `c1` are accepted and one of them is silently dropped; which one depends on `qsort`. `C73_categories_refuted`.
* **F69** **`genfscon` rules for different kinds of file conflict**: `cil_post_genfscon_compare` does not look at `file_type`, so rules for the directories and for the files of a path are rejected as conflicting, or one is dropped. `C73_genfs_refuted`.
* **F70** **A policy with an attribute named `deny_rule_attr_N` can make the CIL compiler free memory twice**: if `cil_symtab_insert` finds the name in use, `cil_create_and_insert_attribute_and_set` (cil_deny.c) destroys the new attribute together with its bitmap `types`, and the caller then frees `types` again. `C74_name_refuted`.
* **F71** **The CIL compiler does not check that a policy has at most 65535 types**, which expand.c:148 does for modules: keys of rules have 16 bits, so a rule for type 65537 applies to type 1. `C75_decisions_refuted`.
* **F72** **Contradicting type rules in a conditional are not always found, and some are dropped silently** (cil_binary.c:1029-1066): if the other branch has a rule for the same types and class, a second rule with another result is added to the branch; and if `avtab_search` happens to find a rule of another conditional with the same result, a contradicting rule of this branch is dropped without an error. `C76_conflict_refuted`, `C76_dropped_refuted`.
* **F73** Two booleanif statements over the same booleans in another order can be merged although they mean different things: with `(booleanif (and a (not b)) (true X))` and `(booleanif (and b (not a)) (true Y))` rule Y is active when a is true and b is false (C78_wrong_merge; the cause is that of the finding for C15).
* **F74** A comparison with `l1` on the right is accepted and means something else: `(eq t1 l1)` is compiled as `(eq t1 t2)`, `(eq l1 l1)` as `(eq l1 h2)`, `(dom h1 l1)` as `(dom h1 h2)` (C79_l1_refuted).
* **F75** `dom`, `domby` and `incomp` with a name of a user, role or type are accepted; the evaluator then ends with 0, so that neither the expression nor its negation ever holds (C79_dom_name_refuted).
* **F76** The depth of validatetrans expressions is not checked when CIL is compiled; one that needs more than five cells refuses every transition (C79_deep_refuted).
* **F77** A carriage return ends a comment of CIL, but a quote in the comment starts a string that goes over carriage returns: with such ends of lines, everything from a quote in a comment to the next quote is silently left out of the policy (C80_carriage_return_refuted).
* **F78** Line marks in CIL and parentheses need not be nested: `)` ends a line mark's node and `lme` ends the list of a parenthesis, so that statements end up in blocks that they are not written in, without an error (C80_line_marks_refuted).
* **F79** constraint_node_clone keeps only the positive part of a set of types beside the expanded set, without exclusions and complements; sepol_kernel_policydb_to_cil (and to_conf) print the kept part, so a constraint such as `t1 == ~a_t` of a policy linked from modules is converted to `(eq t1 a_t)` (C81_complement_refuted). A policy of a version without kept names is printed with NO_IDENTIFIER (C81_no_names_refuted).
* **F80** cats_ebitmap_len of kernel_to_cil.c adds the length of the name of category i-1 where the text has that of category i: if the last name of a run is longer (c9 and c10), the buffer is too small, the category text is NULL, and the level is printed with `(null)` (C82_level_refuted, C82_pair_refuted). kernel_to_conf.c is correct.
* **F81** xperms_to_str writes `)` over `(` if no bit is set, which policydb_validate allows: sepol_kernel_policydb_to_cil writes an unbalanced statement (C83_no_xperms_refuted).
* **F82** write_cond_nodes_to_cil writes a conditional without rules (which checkpolicy and the optimiser can leave) as `(booleanif b)`, which CIL rejects (C83_no_rules_refuted); it returns success without writing any conditional if one expression cannot be written (C83_bad_expression_refuted).
* **F83** validate_datum checks only that the number of a category is at most nprim, so an alias of a category may have the number of no category (C84_category_alias_refuted); validate_mls_range does not compare the ends of a range (C84_range_order_refuted); validate_access_vector accepts bits beyond the permissions of the class (C84_stray_bits_refuted).
* **F84** validate_type_datum checks the flag `primary`, which is 1 for every type that is not an alias, as if it were the number of a type: a policy in which number one is not used is rejected (C84_type_one).
* **F85** In a conditional that comes twice (or whose equal comes from another module), find_avtab_node finds the first entry with the right driver in any conditional and then the next entry of this conditional, whose driver is not compared; allocate_xperms overwrites the driver: a permission is lost and one that no rule gives is granted (C86_xperms_twice_refuted).
* **F86** expand_terule_helper returns success at the first class that has an equal rule already, so the remaining classes of the rule are left out (C87_duplicate_refuted): `type_transition a b:file c; type_transition a b:{ file dir } c;` has no rule for dir.
* **F87** expand_terule_helper looks only at the first entry of the conditional table; if it is that of the other branch, an earlier rule of the same branch with a different type is overwritten without a conflict (C87_overwritten_refuted).
* **F88** type_set_expand compares the numbers of included types with p_types.nprim but uses those of excluded types unchecked (C85_excluded_unchecked); copy_and_expand_avrule_block prints a message when copy_neverallow fails and goes on.
* **F89** policydb_filetrans_insert stops its search at the entry with the same new type, so it misses that the source is in a later entry: rules that contradict each other are accepted or refused depending on their order (C91_contradiction_refuted); such a policy is refused by policydb_read from version 33 on and loses a rule before (C91_written).
* **F90** avtab_read refuses a table without rules, avtab_write writes it: a policy without unconditional rules is written and cannot be read (C88_no_rules_refuted).
* **F91** ocontext_read_selinux refuses names of interfaces and file systems of more than 63 bytes and empty names, which can be written (C88_long_name_refuted).
* **F92** ocontext_read_selinux reads ports as 32 bits and keeps the lower 16 of them before it checks them: 65536 + 80 in a file is port 80. role_read drops what a file says about the role object_r (its bounds and the roles it dominates) without comparing.
* **F93** find_default_type removes the last character of what fgets read, whatever it is: the last line of a file without a newline loses its last character (`r:user_t` gives `user_`, C94_last_line_refuted); lines of 249 bytes or more are read in pieces of which each loses a character, so that a part of a comment can be found as a line (C94_long_line_refuted); a line that starts with a NUL makes it write to buf[-1] (C94_ub).
* **F94** get_failsafe_context cuts a line after 254 bytes without an error, so that the context has another range (C93_failsafe_refuted), and reads buf[-1] if the file starts with a NUL (C93_failsafe_ub).
* **F95** getseuser compares the name of the service including any colon, but then takes the first colon of the line as the end of the service (C92_colon_refuted).
* **F96** get_context_user passes over a line `role:type` with nothing behind it and goes on to a later line with the same role and type, whereas a blank behind it makes the line count (example beside C93_list).
* **F97** A login with a range that contains blanks, such as `s0 - s1`, is written to the file of logins but makes the whole file unreadable (C95_range_refuted); so does a file context whose expression has a blank (C95_blank_refuted) and a boolean with another value than 0 or 1 (C95_value_refuted).
* **F98** parse_fetch_int puts the result of strtol in an int without a check: `x=4294967297` sets the boolean to 1 (C95_value_refuted).
* **F99** A user without roles is written as `roles { }` and read back with a role whose name is empty (C95_no_roles_refuted); a level without a range is lost (C95_level_refuted); a login whose name starts with `#` is lost (C95_comment_refuted).
* **F100** parse_optional_str does not check for the end of the file, as the other functions do: a file of booleans that ends with `x=` or of users that ends with `user u roles r` makes it compare through a null pointer. In a file of users without a last newline user_base_parse steps over the NUL that ends the buffer (C96_null_refuted).
* **F101** semanage_commit returns success without installing anything if no enabled module is left: removing or disabling the last module and committing succeeds, and the module and the policy are as before (C97_commit_refuted).
* **F102** The extension of a module is compared to `cil` without regard to case when it is installed and with regard to case when it is extracted: a module with the extension `CIL` is stored in the file cil and cannot be extracted (C98_extract_refuted).
* **F103** `allowxperm ... ioctl ~{ 0-5 }` (an inverted list that names just a range from 0 on) lists number 1, which it should leave out, and misses nearly all others: avrule_omit_xperms leaves the end of its last range at 0 (C99_from_zero_refuted). `~0x0` makes no rule at all.
* **F104** `allowxperm ... ioctl ~{ 0x10-0xffff }` lists every command: avrule_omit_xperms lets 0xffff + 1 wrap to 0 (C99_to_end_refuted).
* **F105** `nlmsg { 0-0x2ff }` misses 0x100 to 0x1ff: define_te_avtab_netlink makes blocks only for the first and the last driver of a range, and so `nlmsg ~16` misses nearly all numbers (C99_nlmsg_refuted). The compiler of CIL does it right (C77).
* **F106** Extended permissions above 0xffff are cut to 16 bits without a message (C99_large_refuted); CIL refuses them.
* **F107** `fscon` with a number above 0xff makes define_fs_context write `%02x:%02x` beyond its 6 bytes (C100_fs_refuted).
* **F108** `portcon tcp 65536 ...` is accepted and labels port 0: the number is cut to 16 bits, and duplicates are looked for with the number that was not cut (C100_port_refuted).
* **F109** `pirqcon` with numbers above 65535 is cut in the same way, and duplicates are not noticed (C100_pirq_refuted).
* **F110** A `genfscon` that is refused (unknown type of file, bad context) for a new file system type frees the name of the type while the type stays in the list of the policy (C100_genfs_refuted); destroying the policy then frees it again.
* **F111** A `nodecon` with bits outside its mask (10.1.2.3 255.0.0.0) is accepted with a warning only and labels no address, not even 10.1.2.3 (C100_node_refuted).
* **F112** Local port (and key) records with numbers above 65535 are cut to 16 bits when they are merged: a record for port 65616 labels port 80, semanage_port_validate_local does not notice, and a query for its range finds nothing (C101_large_port_refuted).
* **F113** sepol_port_modify always adds an entry: a port range that is customised is in the policy twice, and listing shows the old label as well (C101_port_twice_refuted).
* **F114** A local nodecon hides more specific nodes of the policy: with 10.0.0.0/8 customised, 10.1.0.0/16 of the policy labels nothing any more (C101_longest_prefix_refuted). Longest-prefix order holds among local records and within the policy, not across.
* **F115** sepol_user_modify does not compute the role cache of a user that is in the policy already: until the policy is written and read again context_is_valid refuses every context of the user with a role other than object_r (C102_roles_refuted). In semanage_base_merge_components users come first, so that local port, node and interface records with such contexts are refused.
* **F116** sepol_user_modify that fails (unknown role, bad level) for a user that is in the policy has already emptied it: the user has no roles afterwards (C102_refused_refuted).
* **F117** selinux_restorecon_set_exclude_list ends at the first directory that is not there although it says that it ignores it: those that follow are not excluded (C104_missing_refuted).
* **F118** Excluding / excludes nothing but / itself (C104_root_refuted).
* **F119** A recursive call for a file that is no directory does not look at the exclusions: the file is relabelled although it is below an excluded directory (C103_excluded_file_refuted); the call that is not recursive does look.
* **F120** With an alternate root the prefix is compared without regard to components: with /mnt/root, /mnt/root2/x is looked up as 2/x instead of being refused (C103_alt_root_refuted).
* **F121** The table of inodes has no device numbers: with SELINUX_RESTORECON_ADD_ASSOC a file is not labelled if one on another file system has the same inode number (C103_two_devices_refuted).
* **F122** Directories that cannot be read are only logged: the call succeeds and writes digests, so that later calls skip the directory for good (C103_unreadable_refuted).
* **F123** Digests do not depend on exclusions: after a call with exclusions a call without them skips the directories above them (C103_digest_excluded_refuted).
* **F124** A file whose label has no type (u:r:) makes compare_portions pass NULL to strcmp (C103_bad_label_refuted).
* **F125** With threads and the table of inodes, which of two names of a file gives its label depends on the schedule (C105_links_refuted).
* **F126** After set*con with a context that the kernel writes in another way (s0-s0) or with the empty string, get*con gives back the string instead of what the kernel holds (C106_canonical_refuted, C106_empty_refuted).
* **F127** After an attribute was changed without the library, set*con with the value set before reports success and writes nothing (C106_direct_refuted); getcon gives the old context after a policy was loaded that does not know it (C106_reload_refuted).
* **F128** If the translation daemon fails once, the string itself is kept as its translation and given from then on although the daemon answers (C107_failed_once_refuted); a daemon started after the first translation is never asked (C107_late_refuted).
* **F129** Without the daemon's socket selinux_raw_context_to_color succeeds and gives the context as colours (C107_colour_refuted).
* **F130** security_set_boolean_list with permanent set returns -1 after it has made all values active (C108_permanent_refuted); if the commit fails the values stay pending (C108_commit_refuted); a failing list drops values pending before (C108_pending_refuted) and leaves its own pending where they cannot be read (C108_unreadable_refuted).
* **F131** selinux_boolean_sub steps over the end of a last line that is just the name without a newline and takes what an earlier line left in the buffer for the new name, here part of a comment, or reads memory never written (C109_stale_refuted, C109_unwritten_refuted).
* **F132** The reader wants 16 bytes for each literal specification of a node to be left in the file before it reads them, but a literal takes 11 bytes and its two strings, 15 for a path of one letter: a compiled file of nine such paths and nothing else is refused (C110_refuted).
* **F133** regex_load_mmap gives PCRE the address of the serialized expression without comparing its length with what is left of the file: a forged or cut file makes PCRE read past the end of the mapping (C111_refuted).
* **F134** The line numbers of literal specifications are not stored in compiled files, those of regular expressions are (the specification of C110 keeps them apart).
* **F135** selabel_cmp does not compare contexts: `/etc x` and `/etc y` are SELABEL_EQUAL, which label.h calls identical. C114_contexts_refuted.
* **F136** selabel_cmp does not compare the order of expressions with different fixed directories: files with `/usr/.*` and `.*` in different orders are SELABEL_EQUAL, although lookups of `/usr/b` give different contexts. C114_order_refuted.
* **F137** selabel_cmp of a handle with the expressions a, b, a and one with b, a is SELABEL_INCOMPARABLE, with the arguments exchanged it is SELABEL_SUBSET: the search for a successor prefers the subset. C114_superset_refuted.
* **F138** matchmediacon cuts off the last character of a last line that has no newline: `cdrom s0:c12` gives the context `s0:c1`. C116_newline_refuted.
* **F139** matchmediacon reads, and may write, the byte before its buffer if a line of the file starts with a zero byte. C116_nul_refuted.
* **F140** matchmediacon takes a line of more than 4095 bytes for several lines, and finds a medium in the middle of it. C116_long_refuted.
* **F141** A name that is there twice in the file of users gives two users, of which only the first has the prefix of the other file; the other gets the prefix `user`, and both are written back. C117_twice_refuted.
* **F142** `REQUIRESEUSERS=true` makes entries in seusers optional and `REQUIRESEUSERS=false` makes them required: both results of strncasecmp are tested the wrong way round. C118_require_refuted.
* **F143** `SELINUX = enforcing` and `SELINUXTYPE = mls`, as selinux_config(5) writes them, are not recognised: no white space is allowed before the equals sign; and a line longer than a page is read as several lines by selinux_getenforcemode, so the end of a comment can set the mode. C118_spaces_refuted, C118_long_refuted.
* **F144** If no line of the template is for users (USER, %{USERNAME} or %{USERID}), write_context_file writes no lines for the homes of users, so homes outside of the directories of home directories get no contexts. C119_nouser_refuted.
* **F145** write_contexts replaces the first occurrence of the context in the line, which can be in the path: the path is changed and the context is not. C119_context_refuted.
* **F146** Placeholders are replaced one after the other, so the name of a home directory that contains ROLE is changed; a line HOME_DIR with USER in it is written with HOME_DIR replaced and again with USER replaced, never with both. C119_order_refuted, C119_both_refuted.
* **F147** Contexts are put into the request as they are, so a context with a space moves the border between the two contexts: different requests are the same text. C120_spaces_refuted.
* **F148** security_compute_user_raw trusts the number of contexts in the answer: with a larger number than there are strings it reads behind the end of the page (C121_count_refuted), and with 4294967295 the size of the array wraps around to nothing (C121_wrap_refuted).
* **F149** is_context_customizable drops the last character of each line without looking at it: a last line without a newline loses a letter (C122_newline_refuted), and a line that starts with a zero byte makes it write before its buffer (C122_zero_refuted).

## 5. Checking

`cd lean && lake build`; `vcheck` rebuilds the last commit from a clean copy.

## 6. What is modelled, and what is not, per area

| area (namespace) | modelled | not modelled |
|---|---|---|
| `Ebitmap` | ebitmap.c: init, or/union/and/xor/not/andnot, cardinality, hamming_distance, cmp, cpy, contains, match_any, get/set_bit, init_range, highest_set_bit, read; ebitmap.h iteration macros; write.c: ebitmap_write | allocation failure; `ebitmap_destroy`; printing |
| `Avtab` | avtab.c: hash, insert, insert_nonunique, search, search_node, search_node_next, map, alloc, destroy, read, read_item (new format); write.c: avtab_write(_item) | formats before version 20; hash evaluation statistics; expand-time flags `merged`, `parse_context` |
| `Policy`, `Mls` | mls_types.h, context.h comparison/copy, mls.c except `mls_compute_sid` (see services), context.c, context_record.c string conversion | `sepol_context_*` getters/setters (plain field access), allocation failure |
| `Cond` | conditional.c: evaluate_expr, evaluate_cond_node, evaluate_conds, normalize_expr, expr_equal, same_bools, bool_present, node_create, node_find, node_search, optimize; booleans.c: bool_set; expand.c: cond_node_copy, cond_node_map_bools | reading conditionals from a file; expansion of one rule to types (rules are numbers); `cond_compute_av` (see services) |
| `Sidtab` | sidtab.c: all functions but hash_eval and destroy; services.c: validate_perm, validate_class, convert_context, clone_sid, sepol_load_policy | allocation failure; parsing of the image (its result is an argument) |
| `Services` (decisions) | services.c: constraint_expr_eval_reason, context_struct_compute_av, type_attribute_bounds_av, sepol_compute_av_reason, sepol_validate_transition; conditional.c: cond_compute_av; policydb_validate.c: validate_constraint_nodes and helpers | text of the reason buffer; extended permissions |
| `Services` (labels) | services.c: sepol_compute_sid and its callers, sepol_{fs,port,netif,node,ibpkey,ibendport,genfs}_sid, sepol_fs_use, sepol_get_user_sids; mls.c: mls_compute_sid; policydb.c: genfs_read | filename transitions (only the kernel consults them); byte parsing of genfs records |
| `Hashtab` | hashtab.c: create, insert (with resize), remove, search, map; symtab.c: symhash, symcmp; policydb.c: filenametr/rangetr hash and compare | pointer identity of keys, hashtab_destroy, hashtab_hash_eval (statistics) |
| `Optimize` | optimize.c: the map of covering types, binary search, both redundancy tests (datum, extended permissions), the walks over the unconditional table, the conditional lists and the sweep of the conditional table | memory allocation failure; the hash function placing rules in slots is taken from the `Avtab` area |
| `Assertion` | assertion.c: check_assertion with self, notself and extended permissions over both rule tables, the counting of report_assertion_failures, check_assertions | message texts; allocation failure; rules are taken as given by `expand` with their bitmaps expanded |
| `Avc` | avc.c: allocation, hashing, lookup, insertion, reclaiming, reset, checks with entry references, compute_create, control events with callbacks, avc_audit's decisions; avc_internal.c: processing of setenforce and policyload; sestatus.c: selinux_status_updated; avc_sidtab.c | locks and threads, netlink fallback, log formatting, statistics, avc_destroy; sequence numbers are naturals |
| `Status` | sestatus.c: read_sequence, the loops of getenforce, policyload, deny_unknown, open and updated, one load at a time, interleaved with the kernel's stores | mmap and netlink fallback; the kernel's writer is an assumption (odd while writing) |
| `Context` | libselinux context.c: context_new, context_str, context_to_str, setters, getters | context_free; wrap of int/size_t for strings over 2 GiB |
| `Mapping` | libselinux mapping.c (all), stringrep.c: string_to_security_class, string_to_av_perm, security_class_to_string, security_av_perm_to_string, security_av_string; the translation in compute_av.c; selinux_check_access from the class lookup on | reading selinuxfs (the kernel is a list of classes, permission indices without gaps), mode_to_security_class, print_access_vector |
| `Sha` | libselinux sha1.c (all), libsemanage sha256.c (all) | big-endian hosts for sha1.c (its byte swap is unconditional); Sha1Calculate/Sha256Calculate (compositions) |
| `Checksum` | libsemanage direct_api.c: update_checksum_*, semanage_compile_module (what it hashes), semanage_compile_hll_modules, semanage_compare_checksum, the rebuild decision of semanage_direct_commit; modules.c: semanage_hash_to_checksum_string | bzip2, running the compilers, file system errors other than missing files |
| `Dbase` | libsemanage database_llist.c (all), database_file.c (cache, flush), database.c (all but clear/..), locks and commit number of semanage_store.c, handle.c: connect, disconnect, begin_transaction, commit; direct_api.c: begintrans, disconnect, the outcome structure of commit | what a commit computes (its steps fail or succeed), parsing and printing of records, database_policydb.c, database_activedb.c, database_join.c |
| `FcSort` | libsemanage semanage_store.c: semanage_fc_sort and all it calls (2251-2836), on bytes, with bounds-checked reads and writes | allocation failures |
| `Commit` | libsemanage semanage_store.c: semanage_commit_sandbox, semanage_rename, semanage_copy_file, semanage_copy_dir_flags, semanage_remove_directory, semanage_install_final_tmp, semanage_make_sandbox; direct_api.c: removal of temporary directories; one step per system call | durability (fsync), labels, subdirectories, partial writes |
| `FileLabel` | libselinux label_file.h: regex_has_meta_chars, regex_simplify, insert_spec, compare_literal_spec, compare_spec_node, process_line, string_to_file_kind; label_file.c: sort_spec_node, search_literal_spec, search_child_node, lookup_find_deepest_node, lookup_check_node, lookup_all, lookup, lookup_best_match, partial_match, selabel_apply_subs, selabel_sub_key, selabel_subs_init; label_support.c: read_spec_entry, read_spec_entries | the regular-expression engine (a parameter), compiled files, caches, validation of contexts, memory exhaustion |
| `Bounds` | libsepol/src/hierarchy.c, all functions | messages, memory exhaustion, overflow of counters |
| `Link` | libsepol/src/link.c: enable_avrules, is_decl_requires_met, is_id_enabled, is_perm_existent, print_missing_requirements, populate_roleattributes, expand_role_attributes | the copying of symbols and rules of modules, debug messages, memory exhaustion |
| `CilSet` | libsepol/cil/src/cil_post.c: __cil_cat_expr_range_to_bitmap_helper, __cil_permx_expr_range_to_bitmap_helper, __cil_permx_str_to_int, __cil_perm_to_bitmap, __cil_cat_to_bitmap, __cil_type/role/user_to_bitmap, __evaluate_type/role/user_expression, __cil_expr_to_bitmap, __cil_expr_list_to_bitmap, __evaluate_cat_expression, __evaluate_catset_expression..., __cil_post_db_roletype_helper, __cil_post_db_userrole_helper; cil_verify.c: cil_verify_no_self_reference | parsing and name resolution (their outcome is the hypothesis DbOk), memory exhaustion, levels |
| `CilOrder` | libsepol/cil/src/cil_resolve_ast.c: __cil_ordered_item_insert, __cil_ordered_list_insert, __cil_ordered_find_next_match, __cil_ordered_lists_merge, insert_unordered, __cil_ordered_lists_merge_all; cil_verify.c: cil_verify_completed_ordered_list, __cil_verify_ordered | messages, memory exhaustion |
| `CilCon` | libsepol/cil/src/cil_post.c: cats_compare, level_compare, range_compare, context_compare, cil_post_fc_fill_data, all cil_post_*_compare functions of context rules, *_context_compare wrappers, __cil_post_process_context_rules | qsort itself (any sorted order is covered), messages, the reporting limit of conflicts |
| `CilDeny` | libsepol/cil/src/cil_deny.c (all functions but the ones that make the names and expressions of new attributes), cil_find.c: cil_type_match_any to cil_find_matching_avrule_in_ast for rules without extended permissions | The tree walk (rules of abstract blocks and macros are skipped by both), extended permissions, overflow of num_types_and_attrs, the order of items in a result list of class permissions |
| `CilBin` | libsepol/cil/src/cil_binary.c: cil_type_to_policydb, cil_typeattribute_to_policydb, cil_typeattribute_to_bitmap, __cil_perms_to_datum, __cil_cond_insert_rule, __cil_insert_avrule, __cil_avrule_expand and helpers, __cil_should_expand_attribute, __cil_avrule_to_avtab, cil_cond_av_list_search, __cil_insert_type_rule, __cil_type_rule_to_avtab and helper, the three passes | Name lookup and the tree walk, extended permissions, named transitions, neverallow checks, roles, users and MLS, conditional expressions; running out of memory |
| `CilX` | libsepol/cil/src/cil_binary.c: __avrule_xperm_setrangebits, __cil_permx_bitmap_to_sepol_xperms_list, __cil_avrulex_xperm_to_hashtable, __cil_avrulex_to_hashtable_helper, cil_avrulex_to_hashtable, __cil_avrulex_xperm_to_policydb, the flush of both tables | The hash function, tree walk and name lookup; old policy versions; the order between these rules and others |
| `CilCond` | libsepol/cil/src/cil_build_ast.c: cil_gen_expr and its helpers, cil_gen_boolif, cil_gen_tunif; cil_verify.c: __cil_verify_syntax, cil_verify_expr_syntax, cil_verify_conditional_blocks; cil_resolve_ast.c: cil_resolve_expr for booleans and tunables, cil_resolve_tunif; cil_binary.c: __cil_cond_expr_to_sepol_expr, __cil_validate_cond_expr, cil_booleanif_to_policydb | Scopes of names; the rules inside the blocks (C75-C77); tunables kept as booleans |
| `CilConstr` | libsepol/cil/src/cil_build_ast.c: cil_fill_constraint_expr and its helpers, cil_gen_constrain, cil_gen_validatetrans; cil_verify.c: cil_verify_constraint_leaf_expr_syntax, cil_verify_constraint_expr_syntax; cil_resolve_ast.c: cil_resolve_expr for constraints; cil_find.c: cil_expand_class; cil_binary.c: __cil_constrain_expr_datum_to_sepol_expr to cil_validatetrans_to_policydb | Scopes of names; the syntax of the statements around the expression |
| `CilParse` | libsepol/cil/src/cil_lexer.l: all rules; cil_parser.c: cil_parser, add_hll_linemark, create_node, insert_node | Numbers of lines, the interning of strings, flex's generated code |
| `KernelCil` | libsepol/src/kernel_to_cil.c: cond_expr_to_str, constraint_expr_to_str; kernel_to_common.c: strs_sort, strs_to_str, ebitmap_to_strs, ebitmap_to_str | The other statements that are written, memory management of the strings |
| `KernelCil` (levels, rules) | libsepol/src/kernel_to_cil.c: cats_ebitmap_len, cats_ebitmap_to_str, level_to_str, range_to_str, xperms_to_str, avtab_node_to_str, map_avtab_write_helper, write_avtab_flavor_to_cil, write_avtab_to_cil, write_cond_av_list_to_cil, write_cond_nodes_to_cil; kernel_to_conf.c: cats_ebitmap_to_str, level_to_str, range_to_str; util.c: sepol_av_to_string | Growth of buffers by retry |
| `Validate` | libsepol/src/policydb_validate.c: everything reached for POLICY_KERN; policydb.c: the *_index functions, policydb_index_classes, policydb_index_others; conditional.c: cond_index_bool | Scopes and avrule blocks of modules; messages; avtrue_list, avfalse_list and bool_ids of a conditional, which the reader leaves empty |
| `Expand` | libsepol/src/expand.c: map_ebitmap, expand_convert_type_set, type_set_expand, find_avtab_node, avrule_to_avtab_spec, expand_terule_helper, allocate_xperms, expand_avrule_helper, expand_rule_helper, convert_and_expand_rule, cond_avrule_list_copy and the order of copy_and_expand_avrule_block | Copying of symbols and their maps, copy_neverallow, scopes and optional blocks, role and range transitions, file name transitions; the search for an equal conditional is C12 |
| `PolicyIO` | libsepol/src/write.c and libsepol/src/policydb.c for kernel policies (POLICY_KERN) of versions 26 to 34 for SELinux and Xen: header, symbol tables, rule tables, conditionals, role transitions and allows, file name transitions, ocontexts, genfs, range transitions, type-attribute maps; conditional.c cond_read_list, cond_insertf | Policies of modules, conversion between versions, policy_file of kind PF_USE_STDIO other than as a list of bytes, failing allocations |
| `FileTrans` | policydb_filetrans_insert and its callers in libsepol/src/expand.c, libsepol/cil/src/cil_binary.c and checkpolicy/policy_define.c | Failing allocations; the expansion of sets of types into rules |
| `Login` | libselinux/src/seusers.c, libselinux/src/get_context_list.c, libselinux/src/get_default_type.c | selinux_default_type_path and other paths, getcon for a caller that gives no context, query_user_context and manual_user_enter_context (dialogues), failing allocations, the lookup of groups |
| `LocalFile` | libsemanage/src/parse_utils.c, libsemanage/src/booleans_file.c, libsemanage/src/fcontexts_file.c, libsemanage/src/ibendports_file.c, libsemanage/src/ibpkeys_file.c, libsemanage/src/interfaces_file.c, libsemanage/src/nodes_file.c, libsemanage/src/ports_file.c, libsemanage/src/seusers_file.c, libsemanage/src/users_base_file.c, libsemanage/src/users_extra_file.c, dbase_file_cache and dbase_file_flush of libsemanage/src/database_file.c, sepol_context_from_string and sepol_context_to_string of libsepol/src/context_record.c | messages, failing allocations, reads and writes; the conversion of addresses; the validation of records before they are written |
| `Modules` | libsemanage/src/modules.c (validation of names), semanage_direct_install_info, semanage_direct_remove_key, semanage_direct_get_enabled, semanage_direct_set_enabled, semanage_direct_get_module_info, semanage_direct_set_module_info, semanage_direct_list_all, semanage_direct_extract, semanage_compile_module, semanage_compile_hll_modules and the rebuild of semanage_direct_commit in libsemanage/src/direct_api.c, semanage_get_active_modules and semanage_get_cil_paths in libsemanage/src/semanage_store.c | messages, failing allocations, reads and writes, umask, checksums of modules, sanity checks of directories, compression (C66), the local customisations in a commit |
| `Xperm` | avrule_xperm_ranges, avrule_read_xperm_ranges, avrule_sort_xperms, avrule_merge_xperms, avrule_omit_xperms, avrule_xperm_setrangebits, avrule_xperms_used, avrule_xperm_partialdriver, avrule_ioctl_completedriver, avrule_xperm_func, xperms_for_each_bit, define_te_avtab_ioctl and define_te_avtab_netlink of checkpolicy/policy_define.c | failing allocations; the types and classes of the rules; the conversion of words to numbers |
| `ObjStmt` | define_fs_context, define_pirq_context, define_iomem_context, define_ioport_context, define_pcidevice_context, define_devicetree_context, define_port_context, define_ibpkey_context, define_ibendport_context, define_netif_context, insert_ipv4_node, define_ipv4_node_context, define_ipv4_cidr_node_context, ipv6_cidr_bits_to_mask, ipv6_apply_mask, insert_ipv6_node, define_ipv6_node_context, define_ipv6_cidr_node_context, define_fs_use and define_genfs_context_helper of checkpolicy/policy_define.c | failing allocations; inet_pton and parse_security_context (their results are operands); warnings; the first pass |
| `LocalPol` | port_from_record, sepol_port_modify, sepol_port_query, sepol_port_exists, ibpkey_from_record, sepol_ibpkey_modify, ibendport_from_record, sepol_ibendport_modify, iface_from_record, sepol_iface_modify, node_from_record, sepol_node_modify, sepol_node_compare2, sepol_port_compare2, sepol_ibpkey_compare2, sepol_user_modify, sepol_bool_set of libsepol; semanage_base_merge_components, load_records, clear_obsolete, semanage_port_validate_local, semanage_ibpkey_validate_local of libsemanage | failing allocations; context_from_record and mls_from_string (their results are operands); user_extra and seuser components; nodes whose address and mask have different protocols |
| `Restore` | selinux_restorecon_common, selinux_restorecon_thread, restorecon_sb, compare_portions, filespec_add, check_context_match_for_dir, the exclusion list, selinux_restorecon_set_alt_rootpath of libselinux/src/selinux_restorecon.c; is_context_customizable | failing allocations; realpath and the checks of the path given; the progress display; selinux_restorecon_xattr; filespec_eval; digests with several threads |
| `Client` | libselinux/src/procattr.c; libselinux/src/setrans_client.c but for the socket; libselinux/src/booleans.c | failing allocations; contexts of a page and more; the bytes of the exchange with the daemon; security_get_boolean_names |
| `CompFc` | libselinux/utils/sefcontext_compile.c (the writer); libselinux/src/label_file.c (load_mmap and what it calls, merge_mmap_spec_nodes, the loop over the files of init); libselinux/src/regex.c (storing and loading of expressions) | which of the files with a name is the newest and reading the other after an error; the digest; failing allocations and writes; what PCRE does with the bytes |
| `FcCmp` | selabel_cmp for file contexts: cmp, spec_node_cmp (label_file.c:2187-2455) | messages; handles of other backends; substitutions, which are not compared |
| `LabelObj` | selabel_open and selabel_lookup for media, X and databases (label_media.c, label_x.c, label_db.c: process_line, init, lookup), matchmediacon | options, digests, statistics, allocation failures; fnmatch (a parameter); translation of the result |
| `UserJoin` | database_join.c (cache, flush), semanage_user_join, semanage_user_split, semanage_user_set_name | the linked lists (area Dbase) and files (area LocalFile) below; serial numbers; failures of allocation |
| `Config` | selinux_getenforcemode, init_selinux_config, setpolicytype, selinux_getpolicytype | the table of paths, selinux_set_policy_root, overflow in atoi, locales other than C, failures of allocation |
| `HomeDirs` | semanage_str_replace, replace_all, extract_context, check_line, write_replacements, write_contexts, write_home_dir_context, write_home_root_context, write_username_context, write_user_context, write_context_file | get_home_dirs, get_users, the contexts of libsepol (parameters), comments and the header, failures of allocation and writing |
| `CreateName` | object_name_encode, security_compute_create_name_raw up to the write | opening, writing and reading the file, unmap_class (C33), locales other than C |
| `ComputeUser` | security_compute_user_raw from the read on | opening and writing the file, the translation of contexts, failures of allocation |
| `TypeList` | selinux_check_securetty_context, customizable_init, is_context_customizable | context_new (C32), failures of allocation, files that change between the passes |
| `ComputeAv` | security_compute_av_flags_raw from the read to the flags | opening and writing the file, map_decision (C33), failures of allocation |
