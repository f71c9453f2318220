{
 "claims": [
  {
   "property": "C01",
   "status": "proved",
   "theorems": [
    "Metatab.C01_accepts",
    "Metatab.C01_form",
    "Metatab.C01_insensitive",
    "Metatab.C01_idempotent"
   ],
   "note": "`splitTerm`, `normalizeTerm` on all strings; direct proof over `splitOn`."
  },
  {
   "property": "C02",
   "status": "proved",
   "theorems": [
    "Metatab.C02_qualified",
    "Metatab.C02_unqualified",
    "Metatab.C02_list",
    "Metatab.C02_case",
    "Metatab.C02_blank_pattern_missed"
   ],
   "note": "`termIs` equals a two-line wildcard matcher. Names and patterns have no '.' inside their parts; patterns have no outer blanks (a blank in the pattern makes the code miss)."
  },
  {
   "property": "C03",
   "status": "proved",
   "theorems": [
    "Metatab.C03_chars",
    "Metatab.C03_noDoubleHyphen",
    "Metatab.C03_idempotent",
    "Metatab.C03_fixed_iff"
   ],
   "note": "`slugify` with NFKD as a parameter that leaves ASCII alone; induction on the string."
  },
  {
   "property": "C04",
   "status": "proved",
   "theorems": [
    "Metatab.C04_line",
    "Metatab.C04_text",
    "Metatab.C04_backslash_witness"
   ],
   "note": "`readLine` against an encoder in `Spec/Lines`; induction on the cells."
  },
  {
   "property": "C05",
   "status": "proved",
   "theorems": [
    "Metatab.C05_comment",
    "Metatab.C05_count",
    "Metatab.C05_section",
    "Metatab.C05_section_row"
   ],
   "note": "`readLine`; case analysis, for every text."
  },
  {
   "property": "C06",
   "status": "proved",
   "theorems": [
    "Metatab.C06_noise",
    "Metatab.C06_declarations"
   ],
   "note": "The parser on rows; induction on rows, for every state, fuel and file system; included files are related row by row."
  },
  {
   "property": "C07",
   "status": "proved",
   "theorems": [
    "Metatab.C07_roundtrip",
    "Metatab.C07_injective"
   ],
   "note": "`csv.writer` and `csv.reader` as automata; induction on fields and rows."
  },
  {
   "property": "C08",
   "status": "proved",
   "theorems": [
    "Metatab.C08_leaf",
    "Metatab.C08_groups",
    "Metatab.C08_total"
   ],
   "note": "`convert` on trees; fold invariant. Applies to children without a declared property type."
  },
  {
   "property": "C09",
   "status": "proved",
   "theorems": [
    "Metatab.C09_scalar",
    "Metatab.C09_sequence",
    "Metatab.C09_sconcat",
    "Metatab.C09_bconcat"
   ],
   "note": "`convert` on trees; fold invariant per type."
  },
  {
   "property": "C10",
   "status": "partial",
   "theorems": [
    "Metatab.C10_section_partial",
    "Metatab.C10_unaltered",
    "Metatab.C10_combines",
    "Metatab.C10_exception_witness"
   ],
   "note": "doc.as_dict is proved for every outcome. section.as_dict is proved when it returns; when it raises, the section keeps its terms as children (C10_exception_witness)."
  },
  {
   "property": "C11",
   "status": "proved",
   "theorems": [
    "Metatab.C11_qualified",
    "Metatab.C11_unqualified",
    "Metatab.C11_always",
    "Metatab.C11_unsection_witness",
    "Metatab.C11_orderly"
   ],
   "note": "`docFind` equals a filter over a search list defined separately. `Searchable`: the terms searched have a section with a text name when a section filter is given (otherwise Python raises). Without a section filter nothing is assumed: `C11_always` holds in every document reached by calls that do not set a section to `None` (`C11_unsection_witness` shows what happens otherwise)."
  },
  {
   "property": "C12",
   "status": "proved",
   "theorems": [
    "Metatab.C12_second_load_witness",
    "Metatab.C12_derived",
    "Metatab.C12_self_witness",
    "Metatab.C12_unqualified_witness",
    "Metatab.C12_always",
    "Metatab.C12_declared",
    "Metatab.C12_decl_witness"
   ],
   "note": "`docFind` with the derived names in arbitrary order; permutation of the filter (`C12_derived`); joined with the tables the parser leaves, so that the claim is about the declarations the document shows (`C12_declared`). Types inheriting from themselves are found twice (witness). Inheritances declared in a second load, or by the `decl` argument of the constructor, are not used (`C12_second_load_witness`, `C12_decl_witness`). `C12_always` states it for every reachable document and root-level types, from the recorded super-terms."
  },
  {
   "property": "C13",
   "status": "proved",
   "theorems": [
    "Metatab.C13_first",
    "Metatab.C13_default",
    "Metatab.C13_kw"
   ],
   "note": "The wrappers over `docFind`."
  },
  {
   "property": "C14",
   "status": "proved",
   "theorems": [
    "Metatab.C14_unique"
   ],
   "note": "Invariant `WF` by induction over histories of all operations, also raising ones."
  },
  {
   "property": "C15",
   "status": "partial",
   "theorems": [
    "Metatab.C15_agree_partial",
    "Metatab.C15_once_partial",
    "Metatab.C15_own_partial",
    "Metatab.C15_overwrite_witness",
    "Metatab.C15_non_root_witness",
    "Metatab.C15_delete_case_witness",
    "Metatab.C15_section_witness",
    "Metatab.C15_deleted_section_witness",
    "Metatab.C15_move_witness",
    "Metatab.C15_declare_witness"
   ],
   "note": "Proved for histories of orderly calls (Spec.Orderly): parsing files without declare files or a column called Section, and the editing calls with sections of the document and root-level names. The code breaks the claim for overwritten sections, non-root names, deletions with capitals, section assignment, terms of deleted sections and declare files (C15 witnesses)."
  },
  {
   "property": "C16",
   "status": "proved",
   "theorems": [
    "Metatab.C16_removed",
    "Metatab.C16_gone",
    "Metatab.C16_deleted_section_witness"
   ],
   "note": "`removeTerm` on reachable states, exact final state. Removing a root-level term of a deleted section puts the section back (`C16_deleted_section_witness`), hence the condition in the statement."
  },
  {
   "property": "C17",
   "status": "proved",
   "theorems": [
    "Metatab.C17_always",
    "Metatab.C17_new",
    "Metatab.C17_found"
   ],
   "note": "`newTerm` on reachable states, exact final state and the result of `find` afterwards. Conditions: the section is in the document, the class is no section class, the value name is not a Python attribute (`reservedTvn`). `C17_always`: the search afterwards, in every document made by calls that take no section away."
  },
  {
   "property": "C18",
   "status": "proved",
   "theorems": [
    "Metatab.C18_child",
    "Metatab.C18_value",
    "Metatab.C18_value_word",
    "Metatab.C18_value_name_witness",
    "Metatab.C18_blanks_witness",
    "Metatab.C18_self_witness"
   ],
   "note": "`setItem` on reachable states. The term is not its own child; the child class is no section class. Witnesses for names with blanks, self-named children and children named like the value."
  },
  {
   "property": "C19",
   "status": "proved",
   "theorems": [
    "Metatab.C19_found",
    "Metatab.C19_new",
    "Metatab.C19_twice"
   ],
   "note": "`getOrNewChild` on reachable states."
  },
  {
   "property": "C20",
   "status": "proved",
   "theorems": [
    "Metatab.C20_absent",
    "Metatab.C20_removes"
   ],
   "note": "`setItem` with `None`."
  },
  {
   "property": "C21",
   "status": "proved",
   "theorems": [
    "Metatab.C21_alphabetical",
    "Metatab.C21_order_list",
    "Metatab.C21_error"
   ],
   "note": "`sortByTerm`: permutation, sortedness, stability."
  },
  {
   "property": "C22",
   "status": "proved",
   "theorems": [
    "Metatab.C22_sort_sections"
   ],
   "note": "`sortSections`: permutation and order, for tables without repeated keys (every reachable one)."
  },
  {
   "property": "C23",
   "status": "proved",
   "theorems": [
    "Metatab.C23_add",
    "Metatab.C23_add_idempotent",
    "Metatab.C23_blank_witness",
    "Metatab.C23_remove"
   ],
   "note": "`addArg`, `removeArg` on column lists. With outer blanks `add_arg` is not idempotent (witness)."
  },
  {
   "property": "C24",
   "status": "partial",
   "theorems": [
    "Metatab.C24_lower_case_partial",
    "Metatab.C24_replaces",
    "Metatab.C24_witness"
   ],
   "note": "Holds when the name is already lower-case; with an upper-case letter a new section replaces the existing one (C24_replaces, C24_witness)."
  },
  {
   "property": "C25",
   "status": "partial",
   "theorems": [
    "Metatab.C25_lower_case_partial",
    "Metatab.C25_terms_stay",
    "Metatab.C25_witness",
    "Metatab.C25_absent"
   ],
   "note": "Holds when the name is already lower-case; with an upper-case letter the terms stay (C25_terms_stay, C25_witness)."
  },
  {
   "property": "C26",
   "status": "proved",
   "theorems": [
    "Metatab.C26_coalesce",
    "Metatab.C26_append",
    "Metatab.C26_lookup",
    "Metatab.C26_agree"
   ],
   "note": "`addSection`, `getSection`, `docContains`."
  },
  {
   "property": "C27",
   "status": "proved",
   "theorems": [
    "Metatab.C27_attached"
   ],
   "note": "Parser invariant `Attach` over the heap, for every start state reached without `add_child`. Left out: section objects, header rows, terms made by a column called `Section`."
  },
  {
   "property": "C28",
   "status": "proved",
   "theorems": [
    "Metatab.C28_chains",
    "Metatab.C28_walk",
    "Metatab.C28_self_witness"
   ],
   "note": "Invariant: a child that is not its own parent is newer than its parent (`Grow`, `Tree`); `add_child` by hand excluded. `C28_self_witness`: row `Foo.Foo`."
  },
  {
   "property": "C29",
   "status": "proved",
   "theorems": [
    "Metatab.C29_below_latest",
    "Metatab.C29_root_level",
    "Metatab.C29_root_name_witness"
   ],
   "note": "The parser on ordinary files (`plainFile`) through the reference reader of C59. `C29_root_name_witness`: a record called `Root` takes over elided rows."
  },
  {
   "property": "C30",
   "status": "proved",
   "theorems": [
    "Metatab.C30_elided",
    "Metatab.C30_explicit",
    "Metatab.C30_explicit_witness"
   ],
   "note": "Both files are ordinary; simulation through the reference reader; equality up to object numbers (`SameDoc`). `C30_explicit_witness` shows why the next row must name a term."
  },
  {
   "property": "C31",
   "status": "proved",
   "theorems": [
    "Metatab.C31_no_new",
    "Metatab.C31_reopens"
   ],
   "note": "Reference reader."
  },
  {
   "property": "C32",
   "status": "proved",
   "theorems": [
    "Metatab.C32_reads",
    "Metatab.C32_spliced",
    "Metatab.C32_elided_witness",
    "Metatab.C32_header_witness"
   ],
   "note": "Reference reader extended by includes (`Spec/Include`), induction on nesting. `C32_elided_witness`, `C32_header_witness` show why the conditions are needed."
  },
  {
   "property": "C33",
   "status": "proved",
   "theorems": [
    "Metatab.C33_fails",
    "Metatab.C33_total",
    "Metatab.C33_empty_witness"
   ],
   "note": "A relation `Stops` says where reading breaks; total trichotomy for files of ordinary and include rows."
  },
  {
   "property": "C34",
   "status": "proved",
   "theorems": [
    "Metatab.C34_stable",
    "Metatab.C34_ranked",
    "Metatab.C34_loop_witness"
   ],
   "note": "Monotonicity in the fuel, rank argument; `C34_loop_witness`: two files including each other by URL."
  },
  {
   "property": "C35",
   "status": "partial",
   "theorems": [
    "Metatab.C35_rows_partial",
    "Metatab.C35_cells",
    "Metatab.C35_elided_witness"
   ],
   "note": "Proved for rows with a full name and for argument cells; false for rows with an elided parent (C35_elided_witness)."
  },
  {
   "property": "C36",
   "status": "partial",
   "theorems": [
    "Metatab.C36_additive_partial",
    "Metatab.C36_load_witness",
    "Metatab.C36_witness"
   ],
   "note": "False as stated: the sections and root-level terms of a declare file end up in the document (C36_witness). `C36_load_witness`: the same for declarations given to the constructor. `C36_additive_partial`: loading declare files changes no existing term, removes none, and neither removes nor replaces a section, also when it fails."
  },
  {
   "property": "C37",
   "status": "proved",
   "theorems": [
    "Metatab.C37_rows",
    "Metatab.C37_class_witness"
   ],
   "note": "One row of the parser from an arbitrary state: reading the row is reading the renamed one, up to spelling and class (`C37_class_witness`). Not for include, declare and section rows and section classes."
  },
  {
   "property": "C38",
   "status": "proved",
   "theorems": [
    "Metatab.C38_terminates",
    "Metatab.C38_children",
    "Metatab.C38_frame"
   ],
   "note": "`addDeclaredTerm`; the loop over the growing list with an index; termination, children, frame."
  },
  {
   "property": "C39",
   "status": "proved",
   "theorems": [
    "Metatab.C39_always",
    "Metatab.C39_inverse",
    "Metatab.C39_once",
    "Metatab.C39_load",
    "Metatab.C39_first"
   ],
   "note": "`derivedOf`: sort and group; inverse of the table for dictionaries. In every document made by any sequence of calls (`C39_always`)."
  },
  {
   "property": "C40",
   "status": "partial",
   "theorems": [
    "Metatab.C40_values_partial",
    "Metatab.C40_ignored_partial",
    "Metatab.C40_witness"
   ],
   "note": "Proved for the value set name the code actually looks up; a set never matches by its own name (C40_witness)."
  },
  {
   "property": "C41",
   "status": "proved",
   "theorems": [
    "Metatab.C41_calls",
    "Metatab.C41_always",
    "Metatab.C41_registry",
    "Metatab.C41_parser"
   ],
   "note": "Registry histories against a map specification, and no other call changes the registry (C41_calls). For every reachable document: `C41_always`."
  },
  {
   "property": "C42",
   "status": "proved",
   "theorems": [
    "Metatab.C42_parts",
    "Metatab.C42_plain",
    "Metatab.C42_none"
   ],
   "note": "`updateVersion` on reachable documents; exact result and second run. Conditions: no type derived from the version term."
  },
  {
   "property": "C43",
   "status": "proved",
   "theorems": [
    "Metatab.C43_parts",
    "Metatab.C43_chars",
    "Metatab.C43_version"
   ],
   "note": "`identityName` equals the join of slugs in order; characters by C03."
  },
  {
   "property": "C44",
   "status": "partial",
   "theorems": [
    "Metatab.C44_plain_partial",
    "Metatab.C44_refuses",
    "Metatab.C44_patch_partial",
    "Metatab.C44_witness"
   ],
   "note": "The arithmetic is proved for plain and semantic versions, and that a version which is no number is refused (C44_refuses); that the document is not altered is false: the new version is written to the document (C44_witness)."
  },
  {
   "property": "C45",
   "status": "proved",
   "theorems": [
    "Metatab.C45_stable",
    "Metatab.C45_moving_witness"
   ],
   "note": "`updateName` twice (`updateName_again`), through frame lemmas for `find` (`SameFind`). `C45_moving_witness`: `+1` moves each time."
  },
  {
   "property": "C46",
   "status": "proved",
   "theorems": [
    "Metatab.C46_kept",
    "Metatab.C46_filled",
    "Metatab.C46_made"
   ],
   "note": "`ensureIdentifier`, the UUID is a parameter."
  },
  {
   "property": "C47",
   "status": "proved",
   "theorems": [
    "Metatab.C47_column",
    "Metatab.C47_row",
    "Metatab.C47_nothing_else"
   ],
   "note": "`entryRows`; partition of the property map."
  },
  {
   "property": "C48",
   "status": "proved",
   "theorems": [
    "Metatab.C48_entries",
    "Metatab.C48_names",
    "Metatab.C48_orphan",
    "Metatab.C48_duplicate_witness"
   ],
   "note": "`termRows` on trees; of several terminal children with one name only the last is written (`C48` witness, stated in the theorem)."
  },
  {
   "property": "C49",
   "status": "proved",
   "theorems": [
    "Metatab.C49_exact",
    "Metatab.C49_once",
    "Metatab.C49_total",
    "Metatab.C49_all"
   ],
   "note": "`descendents`, `allTerms` against an inductive relation; order and uniqueness from C28's invariant."
  },
  {
   "property": "C50",
   "status": "partial",
   "theorems": [
    "Metatab.C50_roundtrip_partial",
    "Metatab.C50_stable_partial",
    "Metatab.C50_exact_partial",
    "Metatab.C50_duplicate_witness",
    "Metatab.C50_root_suffix_witness",
    "Metatab.C50_same_name_witness",
    "Metatab.C50_declared_partial"
   ],
   "note": "Proved (up to the order of children, and stable from the first file on) for outlines with ordinary names and values, also with declared value names; C50_declared_partial covers documents that begin with Declare rows whose files are quiet (Spec.Quiet: they add declarations and nothing else to the document). C50_duplicate_witness, C50_root_suffix_witness and C50_same_name_witness show documents that are not preserved."
  },
  {
   "property": "C51",
   "status": "proved",
   "theorems": [
    "Metatab.C51_props",
    "Metatab.C51_args",
    "Metatab.C51_all",
    "Metatab.C51_no_section"
   ],
   "note": "`props`, `argProps`, `allProps`."
  },
  {
   "property": "C52",
   "status": "partial",
   "theorems": [
    "Metatab.C52_child",
    "Metatab.C52_underscore",
    "Metatab.C52_value_name",
    "Metatab.C52_absent_partial",
    "Metatab.C52_set_column",
    "Metatab.C52_set_value",
    "Metatab.C52_set_other",
    "Metatab.C52_section_witness",
    "Metatab.C52_shadow_witness"
   ],
   "note": "Proved for all terms that are not sections; a section raises AttributeError for an absent common property (C52_section_witness). C52_underscore: names with one leading underscore are read like others."
  },
  {
   "property": "C53",
   "status": "proved",
   "theorems": [
    "Metatab.C53_no_term",
    "Metatab.C53_names"
   ],
   "note": "Reference reader."
  },
  {
   "property": "C54",
   "status": "partial",
   "theorems": [
    "Metatab.C54_write",
    "Metatab.C54_succeeds",
    "Metatab.C54_format",
    "Metatab.C54_mismatch",
    "Metatab.C54_url",
    "Metatab.C54_current_partial",
    "Metatab.C54_read_back_partial",
    "Metatab.C54_stale_witness",
    "Metatab.C54_crash_witness"
   ],
   "note": "Formats, errors, effects on files and crash points are proved. That the file holds what the document serialises to afterwards is false: the text is made before the document is given its identifier and name (C54_stale_witness)."
  },
  {
   "property": "C55",
   "status": "partial",
   "theorems": [
    "Metatab.C55_exists",
    "Metatab.C55_new_partial",
    "Metatab.C55_succeeds",
    "Metatab.C55_url_witness",
    "Metatab.C55_empty_witness"
   ],
   "note": "Proved for names that the URL library reads as that very path; a file: URL overwrites an existing file (C55_url_witness), an empty name overwrites the template (C55_empty_witness)."
  },
  {
   "property": "C56",
   "status": "partial",
   "theorems": [
    "Metatab.C56_resources_partial",
    "Metatab.C56_no_name",
    "Metatab.C56_no_schema",
    "Metatab.C56_succeeds",
    "Metatab.C56_single_witness",
    "Metatab.C56_identifier_witness",
    "Metatab.C56_identity_witness"
   ],
   "note": "Proved what a successful conversion lists, when it succeeds, and that a missing name or Schema section raises ConversionError. The code fails for tables with a single undeclared column and ignores Identifier because of a misspelt key (C56_single_witness, C56_identifier_witness)."
  },
  {
   "property": "C57",
   "status": "proved",
   "theorems": [
    "Metatab.C57_flatten",
    "Metatab.C57_values",
    "Metatab.C57_empty_key_witness"
   ],
   "note": "`flatten` on trees. Empty keys drop components (witness)."
  },
  {
   "property": "C58",
   "status": "partial",
   "theorems": [
    "Metatab.C58_known",
    "Metatab.C58_path",
    "Metatab.C58_fragment",
    "Metatab.C58_idempotent",
    "Metatab.C58_target_partial",
    "Metatab.C58_target_witness",
    "Metatab.C58_extension",
    "Metatab.C58_no_extension"
   ],
   "note": "Target naming is not injective on suffixes (C58_target_witness); the restricted statement is proved."
  },
  {
   "property": "C59",
   "status": "proved",
   "theorems": [
    "Metatab.C59_reads",
    "Metatab.C59_complete"
   ],
   "note": "The parser against a reference reader of 60 lines (`Spec/Reader`), simulation by induction on rows (`Lemmas/Plain*`, `Reader`)."
  },
  {
   "property": "C60",
   "status": "proved",
   "theorems": [
    "Metatab.C60_contains",
    "Metatab.C60_properties_witness"
   ],
   "note": "`termContains`. `C60_properties_witness`: with a child called `properties` the test is a substring test."
  },
  {
   "property": "C61",
   "status": "proved",
   "theorems": [
    "Metatab.C61_cleaned",
    "Metatab.C61_used",
    "Metatab.C61_no_empty",
    "Metatab.C61_no_schema",
    "Metatab.C61_padded_witness"
   ],
   "note": "`cleanUnused` on reachable documents; conditions `SchemaOk`. `C61_padded_witness`: padded column names survive. Without a Schema section: `KeyError` (`C61_no_schema`)."
  },
  {
   "property": "C62",
   "status": "proved",
   "theorems": [
    "Metatab.C62_no_fallback",
    "Metatab.C62_stable",
    "Metatab.C62_slug",
    "Metatab.C62_no_dataset",
    "Metatab.C62_unslugged_witness"
   ],
   "note": "`cleanse`: a calculus of operations that raise no `MetatabError` (`Lemmas/NoMeta`), stability through C45. `C62_unslugged_witness`: without `Root.Dataset` the name is no slug."
  },
  {
   "property": "C63",
   "status": "partial",
   "theorems": [
    "Metatab.C63_roundtrip_partial",
    "Metatab.C63_stable_partial",
    "Metatab.C63_csv_partial",
    "Metatab.C63_pipe_witness",
    "Metatab.C63_break_witness",
    "Metatab.C63_csv_keeps",
    "Metatab.C63_declared_partial"
   ],
   "note": "Full claim: every document. Proved for outlines that are `lineWritable`: as for C50, and no `|` or line break in values, no `:` in names; value names may be declared. `C63_declared_partial` covers documents that begin with Declare rows whose files are quiet (as C50_declared_partial). Beyond that the claim is false for the code: `C63_pipe_witness`, `C63_break_witness` (the writer escapes nothing)."
  },
  {
   "property": "C64",
   "status": "partial",
   "theorems": [
    "Metatab.C64_orderly",
    "Metatab.C64_term_partial",
    "Metatab.C64_children",
    "Metatab.C64_first_value",
    "Metatab.C64_qualified",
    "Metatab.C64_inside",
    "Metatab.C64_section",
    "Metatab.C64_section_values",
    "Metatab.C64_section_default_witness"
   ],
   "note": "Full claim: defaults are honoured everywhere. `C64_section` is for qualified names without derived terms; `C64_inside` needs neither. False for `section.get`, whose default is never used (`C64_section_default_witness`). `C64_orderly`: exact in every orderly document."
  },
  {
   "property": "C65",
   "status": "partial",
   "theorems": [
    "Metatab.C65_orderly_partial",
    "Metatab.C65_new_partial",
    "Metatab.C65_found",
    "Metatab.C65_map_witness",
    "Metatab.C65_blanks_witness",
    "Metatab.C65_none_witness"
   ],
   "note": "What the code does is proved: the value asked for is part of the search (`C65_found`, `C65_new_partial`). The claim itself is false for the code: `C65_map_witness` (the old value still shows and another term appears), `C65_blanks_witness`, `C65_none_witness`. `C65_orderly_partial`: both cases in every orderly document."
  },
  {
   "property": "C66",
   "status": "partial",
   "theorems": [
    "Metatab.C66_declared",
    "Metatab.C66_new",
    "Metatab.C66_row_partial",
    "Metatab.C66_same_load_witness",
    "Metatab.C66_padded_witness"
   ],
   "note": "`C66_declared`, `C66_new` hold in every state. Section rows take the columns declared in earlier loads only: the claim is false for the code for a section declared by the document itself (`C66_same_load_witness`) and for rows padded with blank cells (`C66_padded_witness`)."
  },
  {
   "property": "C67",
   "status": "partial",
   "theorems": [
    "Metatab.C67_found",
    "Metatab.C67_exists",
    "Metatab.C67_documented_partial",
    "Metatab.C67_shadow_witness"
   ],
   "note": "`C67_found`, `C67_exists` say exactly where the code looks. The documented order is proved when the package has no file of the name (`C67_documented_partial`); otherwise it is false for the code: the package comes before the directory of the document (`C67_shadow_witness`)."
  },
  {
   "property": "C68",
   "status": "proved",
   "theorems": [
    "Metatab.C68_new",
    "Metatab.C68_mismatch",
    "Metatab.C68_properties",
    "Metatab.C68_term"
   ],
   "note": "For names and classes that make ordinary terms (`KidOk`, `KwOk`, `TermOk`); `C68_mismatch` for other parents."
  },
  {
   "property": "C69",
   "status": "partial",
   "theorems": [
    "Metatab.C69_sections",
    "Metatab.C69_reads_partial",
    "Metatab.C69_stops",
    "Metatab.C69_parent",
    "Metatab.C69_mapping",
    "Metatab.C69_mapping_witness",
    "Metatab.C69_scalars_witness",
    "Metatab.C69_unnamed_witness",
    "Metatab.C69_bare_witness"
   ],
   "note": "`C69_reads_partial`: mappings of scalars and of lists of mappings of scalars that have the value entry. Beyond that the claim is false for the code: mappings under a name (`C69_mapping`, `C69_mapping_witness`), lists of scalars (`C69_stops`, `C69_scalars_witness`), elements without the value entry (`C69_unnamed_witness`), terms declared without `Root.` (`C69_bare_witness`)."
  },
  {
   "property": "C70",
   "status": "proved",
   "theorems": [
    "Metatab.C70_calls",
    "Metatab.C70_parse",
    "Metatab.C70_load",
    "Metatab.C70_plain"
   ],
   "note": "Accumulation for parsing and for load_declarations, no change on errors, and no additions without Declare rows. For the last part the document must contain no objects made from declare files. C70_calls: no other call changes the tables."
  },
  {
   "property": "C71",
   "status": "partial",
   "theorems": [
    "Metatab.C71_add_partial",
    "Metatab.C71_refuse",
    "Metatab.C71_move_witness"
   ],
   "note": "Adding and refusing are proved. The last sentence is false for the code: move_term leaves the term in the list of the old section and keeps its old section attribute (C71_move_witness)."
  },
  {
   "property": "C72",
   "status": "partial",
   "theorems": [
    "Metatab.C72_fragment",
    "Metatab.C72_fails_partial",
    "Metatab.C72_readonly",
    "Metatab.C72_in_place",
    "Metatab.C72_delivers_partial",
    "Metatab.C72_success",
    "Metatab.C72_create",
    "Metatab.C72_find",
    "Metatab.C72_missing",
    "Metatab.C72_unreadable",
    "Metatab.C72_idempotent_partial",
    "Metatab.C72_convert_partial",
    "Metatab.C72_remote_witness",
    "Metatab.C72_declaration_witness",
    "Metatab.C72_terms_witness"
   ],
   "note": "Proved for local files; idempotence and conversion for documents whose outline is writable (C50, C63). False for the code: a document that is not local is not printed (C72_remote_witness); -d without -j or -y prints nothing (C72_declaration_witness). -t prints a line and then fails for a file that could be opened (C72_terms_witness). What exit code 0 means is stated by C72_success."
  },
  {
   "property": "C73",
   "status": "partial",
   "theorems": [
    "Metatab.C73_always",
    "Metatab.C73_found",
    "Metatab.C73_missing_partial",
    "Metatab.C73_unnamed_witness",
    "Metatab.C73_orderly"
   ],
   "note": "Proved for tables with names. With a table without a name the message cannot be made and TypeError is raised (C73_unnamed_witness). `C73_always`: in every document made by calls that take no section away."
  },
  {
   "property": "C74",
   "status": "partial",
   "theorems": [
    "Metatab.C74_new_child",
    "Metatab.C74_get_or_new_child_partial",
    "Metatab.C74_new_term",
    "Metatab.C74_get_or_new_term_partial",
    "Metatab.C74_calls_partial",
    "Metatab.C74_properties_witness",
    "Metatab.C74_term_properties_witness",
    "Metatab.C74_item_witness",
    "Metatab.C74_blank_witness",
    "Metatab.C74_parse_witness",
    "Metatab.C74_delete_witness",
    "Metatab.C74_answers_partial"
   ],
   "note": "Proved for new_child, new_term, get_or_new_child and get_or_new_term without properties (or of a new child), section items, new sections, sorting, columns and classes (C74_calls_partial), for errors the model tracks exactly. False for the code where a call consists of several steps: properties of an existing child or term, item assignment with a name or value that is stored differently, reading rows, deleting a section that lists a moved term (C74_*_witness). C74_answers_partial: after a refused call of this kind the document gives the same answers as before."
  },
  {
   "property": "C75",
   "status": "proved",
   "theorems": [
    "Metatab.C75_read",
    "Metatab.C75_declarations",
    "Metatab.C75_find"
   ],
   "note": "Every reachable document, all rows, files and declare files, also when reading raises. Search: root-level names without derived terms."
  },
  {
   "property": "C76",
   "status": "proved",
   "theorems": [
    "Metatab.C76_made",
    "Metatab.C76_blocked",
    "Metatab.C76_again"
   ],
   "note": "For resolved paths without symbolic links; permissions are not modelled."
  },
  {
   "property": "C77",
   "status": "partial",
   "theorems": [
    "Metatab.C77_ensure_partial",
    "Metatab.C77_file_witness"
   ],
   "note": "Proved unless the path is a file. Then the claim is false for the code: it returns without making a directory (C77_file_witness)."
  },
  {
   "property": "C78",
   "status": "proved",
   "theorems": [
    "Metatab.C78_visits",
    "Metatab.C78_refuses"
   ],
   "note": "For resolved paths without symbolic links."
  },
  {
   "property": "C79",
   "status": "partial",
   "theorems": [
    "Metatab.C79_digest_partial",
    "Metatab.C79_through_witness"
   ],
   "note": "Proved for files, directories and paths that lead nowhere, for every hash function whose update takes pieces. False for the code for a path that goes through a file: NotADirectoryError is not caught (C79_through_witness)."
  },
  {
   "property": "C80",
   "status": "partial",
   "theorems": [
    "Metatab.C80_file",
    "Metatab.C80_refused",
    "Metatab.C80_text_partial",
    "Metatab.C80_name",
    "Metatab.C80_text_witness",
    "Metatab.C80_missing_witness"
   ],
   "note": "Paths, URLs, handles and refusals are proved. For a string the claim is proved if no readable file has that name; otherwise it is false for the code: the file is read (C80_text_witness). The name of a file that cannot be read is taken as text (C80_missing_witness)."
  },
  {
   "property": "C81",
   "status": "partial",
   "theorems": [
    "Metatab.C81_agree",
    "Metatab.C81_list",
    "Metatab.C81_absent",
    "Metatab.C81_iter",
    "Metatab.C81_name_partial",
    "Metatab.C81_name_witness"
   ],
   "note": "Agreement, lists and iteration are proved for every reachable document. That each section is met once and found under its own name is proved for orderly histories; it is false after assigning to the value of a section (C81_name_witness). Lists of lists are not modelled."
  },
  {
   "property": "C82",
   "status": "partial",
   "theorems": [
    "Metatab.C82_copied_partial",
    "Metatab.C82_same",
    "Metatab.C82_no_source",
    "Metatab.C82_refused",
    "Metatab.C82_target_witness",
    "Metatab.C82_again_witness",
    "Metatab.C82_ignore_witness"
   ],
   "note": "Proved for an existing target outside the source without names in common, with ignore below the first level. False for the code otherwise: a missing target may or may not be made (C82_target_witness), a directory that is already there stops the copy (C82_again_witness), ignore is not asked on the first level (C82_ignore_witness). shutil is described by its effect; no symbolic links."
  },
  {
   "property": "C83",
   "status": "proved",
   "theorems": [
    "Metatab.C83_frame",
    "Metatab.C83_opened",
    "Metatab.C83_register",
    "Metatab.C83_project",
    "Metatab.C83_alone",
    "Metatab.C83_orderly",
    "Metatab.C83_shared_witness"
   ],
   "note": "For calls whose arguments belong to the document they are made on; see C84 for objects handed from one document to another."
  },
  {
   "property": "C84",
   "status": "partial",
   "theorems": [
    "Metatab.C84_taken_partial",
    "Metatab.C84_same_answer",
    "Metatab.C84_new_document",
    "Metatab.C84_stolen_witness"
   ],
   "note": "Proved when the document has a section of that name. Otherwise the claim is false for the code: the section of the other document becomes a section of both, and terms made in it go to the wrong document (C84_stolen_witness). C84_new_document shows a new document owns its root section; C84_same_answer that taking a term over succeeds or raises exactly as adding it does within the document alone."
  },
  {
   "property": "C85",
   "status": "proved",
   "theorems": [
    "Metatab.C85_dotted",
    "Metatab.C85_error",
    "Metatab.C85_undotted",
    "Metatab.C85_lookup",
    "Metatab.C85_resolved"
   ],
   "note": "What __import__ and getattr do is a parameter; C85_resolved connects the lookup with the one of the model of documents, where classes are registered as objects."
  },
  {
   "property": "C86",
   "status": "proved",
   "theorems": [
    "Metatab.C86_reads",
    "Metatab.C86_stops",
    "Metatab.C86_pieces",
    "Metatab.C86_elided_witness",
    "Metatab.C86_parent_witness",
    "Metatab.C86_section_witness"
   ],
   "note": "For files of ordinary rows and include rows, without declarations. Witnesses show that a file cannot be cut at other places."
  },
  {
   "property": "C87",
   "status": "partial",
   "theorems": [
    "Metatab.C87_unknown_section",
    "Metatab.C87_inherits_without_section",
    "Metatab.C87_inherited_witness"
   ],
   "note": "Proved for the declared term itself, with the state left behind. For a child that is inherited and has lost its section the code raises AttributeError instead (witness)."
  },
  {
   "property": "C88",
   "status": "partial",
   "theorems": [
    "Metatab.C88_lines",
    "Metatab.C88_listing_partial",
    "Metatab.C88_fronts",
    "Metatab.C88_command_partial",
    "Metatab.C88_columns_witness"
   ],
   "note": "Proved for files of ordinary rows without argument cells before the first section or header row (or whose last section has no columns); the exact output is proved for all files of ordinary rows. Otherwise the columns of the last section are applied to the cells at the start of the file (witness)."
  },
  {
   "property": "C89",
   "status": "partial",
   "theorems": [
    "Metatab.C89_same",
    "Metatab.C89_rows",
    "Metatab.C89_plain_partial",
    "Metatab.C89_file_ref",
    "Metatab.C89_file_ref_plain_partial",
    "Metatab.C89_file_ref_distinct",
    "Metatab.C89_places_distinct",
    "Metatab.C89_name_witness",
    "Metatab.C89_section_witness",
    "Metatab.C89_include_witness"
   ],
   "note": "Rows, columns and the file being read: proved for all inputs and outcomes (C89_rows); exact places of all terms for files of ordinary rows. False for the code: file_name is a slug, so that it can differ from the name of the file and be the same for two files (C89_name_witness; it is the name for names of lower-case letters, digits, _, . and single hyphens), a section has its row number for its column (C89_section_witness), and terms of included files have the class name of the row generator, in lower case, for file_name (C89_include_witness)."
  },
  {
   "property": "C90",
   "status": "partial",
   "theorems": [
    "Metatab.C90_same",
    "Metatab.C90_message",
    "Metatab.C90_unreadable_partial",
    "Metatab.C90_term",
    "Metatab.C90_dict_partial",
    "Metatab.C90_other_row_witness",
    "Metatab.C90_no_term_witness"
   ],
   "note": "Reason, row and message proved for all inputs (C90_same, C90_message); the term is that of the row at fault whenever the file of the row cannot be read, at any depth (C90_unreadable_partial, C90_dict_partial). False for the other reasons: the error names no term in the file that is loaded (then errors_as_dict raises, C90_no_term_witness) and the term yielded before the row in an included file (C90_term, C90_other_row_witness)."
  },
  {
   "property": "C91",
   "status": "proved",
   "theorems": [
    "Metatab.C91_template",
    "Metatab.C91_new",
    "Metatab.C91_command",
    "Metatab.C91_again"
   ],
   "note": "For all disks, paths and declare files whose reading leaves only declarations (Declares, Spec/Template): the shipped template is read as the outline of a new file (C91_template), new_metatab_file and metatab -C write exactly the text of that outline (C91_new, C91_command), and the text is read as the same outline and written the same again (C91_again). The identifier in the file is empty: the text is computed before cleanse makes one (C54_stale_witness)."
  },
  {
   "property": "C92",
   "status": "partial",
   "theorems": [
    "Metatab.C92_orderly",
    "Metatab.C92_nothing",
    "Metatab.C92_absent_partial",
    "Metatab.C92_fails",
    "Metatab.C92_witness",
    "Metatab.C92_short_witness"
   ],
   "note": "Proved for names that no term of the section was given (C92_absent_partial). False otherwise: nothing is ever removed (C92_nothing, all documents and names). The method that is called, delete_term, does not exist, so the call raises AttributeError, or TypeError if the section has a term of that name (C92_fails, C92_witness); a short name such as Creator never matches a term that was read, whose name is root.creator (C92_short_witness). `C92_orderly`: every orderly document."
  },
  {
   "property": "C93",
   "status": "partial",
   "theorems": [
    "Metatab.C93_declare_row_partial",
    "Metatab.C93_tables_partial",
    "Metatab.C93_witness",
    "Metatab.C93_builtin_witness"
   ],
   "note": "Proved for the tables: a Declare row with a given name and the constructor argument leave equal tables of declared terms and sections, for all declare files without include, declare and root.root rows (C93_declare_row_partial); with a source, the document keeps what the declare files declared unless the source or the parser's initial table has the name (C93_tables_partial). False for the rest (C93_witness, C93_builtin_witness): given to the constructor, synonyms are not replaced, child terms do not get their declared value names, inheritance is not used by find, the terms declared for the root section are lost and declarations of built-in names are undone; columns declared for a section are used by sections of the source only when given to the constructor."
  },
  {
   "property": "C94",
   "status": "proved",
   "theorems": [
    "Metatab.C94_term",
    "Metatab.C94_section",
    "Metatab.C94_document",
    "Metatab.C94_written",
    "Metatab.C94_lines"
   ],
   "note": "For every outline whose names are single name parts other than section and whose values are stripped and not empty: C94_document from a new document; C94_term and C94_section for any document reached without add_child whose declared value names are usable (Spec.Usable). C94_written and C94_lines compose with C50 and C63 for writable outlines."
  },
  {
   "property": "C95",
   "status": "proved",
   "theorems": [
    "Metatab.C95_term",
    "Metatab.C95_section_term",
    "Metatab.C95_child",
    "Metatab.C95_item",
    "Metatab.C95_section",
    "Metatab.C95_answers",
    "Metatab.C95_replaced_witness",
    "Metatab.C95_overwritten_witness"
   ],
   "note": "C95_term, C95_section_term, C95_child, C95_item, C95_section: the first call is only assumed to have returned; the second then returns, and Spec.Untouched relates the document before and after (objects made meanwhile may remain, nothing refers to them). C95_answers: what Untouched means for a client, in documents reached without add_child by hand. C95_replaced_witness and C95_overwritten_witness show that the conditions on the names are needed."
  },
  {
   "property": "C96",
   "status": "partial",
   "theorems": [
    "Metatab.C96_outline",
    "Metatab.C96_csv_partial",
    "Metatab.C96_lines_partial",
    "Metatab.C96_exact_partial",
    "Metatab.C96_calls",
    "Metatab.C96_built",
    "Metatab.C96_duplicate_witness",
    "Metatab.C96_order_witness"
   ],
   "note": "C96_outline (any document reached without add_child whose terms have no declared value names and types), C96_calls and C96_built (documents made by calls: nothing assumed about value names and types) are full; C96_csv_partial, C96_lines_partial and C96_exact_partial need documents that are writable in the sense of C50/C63. Duplicate terminal children and lists that mix terms with and without children are changed by writing: C96_duplicate_witness, C96_order_witness. Missing: declared value names and types."
  },
  {
   "property": "C97",
   "status": "proved",
   "theorems": [
    "Metatab.C97_edits",
    "Metatab.C97_saved",
    "Metatab.C97_new",
    "Metatab.C97_loaded",
    "Metatab.C97_section_column_witness",
    "Metatab.C97_dropPart",
    "Metatab.C97_order",
    "Metatab.C97_setChild",
    "Metatab.C97_sort",
    "Metatab.C97_addColumn",
    "Metatab.C97_dropColumn",
    "Metatab.C97_value",
    "Metatab.C97_child",
    "Metatab.C97_dropChild",
    "Metatab.C97_term",
    "Metatab.C97_section",
    "Metatab.C97_dropTerm"
   ],
   "note": "C97_value, C97_child, C97_dropChild, C97_term, C97_section, C97_dropTerm, C97_dropPart, C97_order, C97_sort and C97_setChild for single edits at any position, C97_edits for any sequence, for editable documents (Spec.Editable: reached without add_child, usable declared value names, no declared sections beyond the initial ones, terms of sections listed in the document, section classes only for the two section names; every new document and every document read from the rows of a writable outline is editable). C97_addColumn and C97_dropColumn for columns of sections without a header row (the outline does not tell whether a section has one, so these are not among the edits of C97_edits). C97_new gives the dict, C97_saved and C97_loaded the files of writable outlines. Names must be single parts other than section, and the section must have no column called Section: C97_section_column_witness."
  },
  {
   "property": "C98",
   "status": "proved",
   "theorems": [
    "Metatab.C98_edited",
    "Metatab.C98_loaded_edited",
    "Metatab.C98_star_witness",
    "Metatab.C98_nested",
    "Metatab.C98_root",
    "Metatab.C98_unqualified",
    "Metatab.C98_orderly",
    "Metatab.C98_read",
    "Metatab.C98_saved"
   ],
   "note": "C98_nested, C98_root and C98_unqualified for documents whose lists are in order (Spec.Indexed); C98_orderly, C98_read, C98_edited and C98_loaded_edited show this for orderly histories, documents read from plain rows, edits of new documents and of documents that were written and read; C98_saved compares the searches before and after writing and reading a writable document. Names *.B are left out: they also find sections (C98_star_witness). Names are single parts."
  },
  {
   "property": "C99",
   "status": "proved",
   "theorems": [
    "Metatab.C99_value",
    "Metatab.C99_property",
    "Metatab.C99_dropChild",
    "Metatab.C99_set",
    "Metatab.C99_set_new",
    "Metatab.C99_term",
    "Metatab.C99_dropTerm",
    "Metatab.C99_section",
    "Metatab.C99_dropPart",
    "Metatab.C99_moved_witness",
    "Metatab.C99_value_lines",
    "Metatab.C99_property_lines",
    "Metatab.C99_dropChild_lines",
    "Metatab.C99_term_lines",
    "Metatab.C99_dropTerm_lines",
    "Metatab.C99_section_lines",
    "Metatab.C99_dropPart_lines"
   ],
   "note": "C99_value, C99_property, C99_set, C99_set_new, C99_dropChild, C99_term, C99_dropTerm, C99_section and C99_dropPart, each for the run of the edit and the CSV texts before and after, with Spec.OneCell (one cell differs) and Spec.Gains (rows are inserted at one place). Hypotheses: Spec.Editable (C97), value names written as @value, outlines writable (C50) before and after. A property that itself gets a child leaves its cell, so more than one place changes: C99_moved_witness; this is why new properties are for root-level terms and terms with children. For the Lines format: C99_value_lines, C99_property_lines, C99_dropChild_lines, C99_term_lines, C99_dropTerm_lines, C99_section_lines and C99_dropPart_lines, about str.splitlines of the two texts, for outlines that survive in lines (C63)."
  },
  {
   "property": "C100",
   "status": "partial",
   "theorems": [
    "Metatab.C100_outline_partial",
    "Metatab.C100_search_partial",
    "Metatab.C100_order_partial",
    "Metatab.C100_parents_partial",
    "Metatab.C100_parent_witness",
    "Metatab.C100_order_witness"
   ],
   "note": "C100_order_partial, C100_parents_partial and, for the outlines and for searches, C100_outline_partial and C100_search_partial: proved for pieces that are ordinary files by themselves, so that no row refers to a parent in another piece. False otherwise: the parser forgets the last parent at a section row, but not the last term of each name, so Table.Column in one section becomes a child of the table in another (C100_parent_witness), and with the sections exchanged the file cannot be read (C100_order_witness)."
  },
  {
   "property": "C101",
   "status": "proved",
   "theorems": [
    "Metatab.C101_declared_root",
    "Metatab.C101_file_terms_witness",
    "Metatab.C101_declared",
    "Metatab.C101_declared_search",
    "Metatab.C101_declared_edits",
    "Metatab.C101_declared_saved",
    "Metatab.C101_declared_edited",
    "Metatab.C101_head_witness",
    "Metatab.C101_read",
    "Metatab.C101_search",
    "Metatab.C101_dict",
    "Metatab.C101_edits",
    "Metatab.C101_saved",
    "Metatab.C101_one_cell",
    "Metatab.C101_stray_witness",
    "Metatab.C101_elided_witness"
   ],
   "note": "C101_read, C101_search, C101_dict, C101_edits, C101_saved and C101_one_cell, for Spec.plainFile and Spec.treeFile; the outline Spec.fileOutline is computed from the rows by the reference reader. Saving needs an outline that can be written (Spec.writable, C50). The conditions are needed: C101_stray_witness (a row that refers to another section) and C101_elided_witness (an argument cell of an elided row names another parent than it has). C101_declared, C101_declared_search and C101_declared_saved: files that begin with Declare rows for quiet declare files (C50), with no argument cells before the first section row (C101_head_witness). C101_declared_edits and C101_declared_edited: edits of such files, if the document of the Declare rows alone is Editable (C97) and satisfies Spec.NoSecTvn. C101_declared_root: searches at root level also find the terms of the declare files (C101_file_terms_witness); these must be in sections of their own (Spec.OwnSections)."
  }
 ]
}