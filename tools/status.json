{
 "C01": [
  "proved",
  "`splitTerm`, `normalizeTerm` on all strings; direct proof over `splitOn`."
 ],
 "C02": [
  "proved",
  "`termIs` equals a two-line wildcard matcher. Names and patterns have no '.' inside their parts; patterns have no outer blanks (a blank in the pattern makes the code miss)."
 ],
 "C03": [
  "proved",
  "`slugify` with NFKD as a parameter that leaves ASCII alone; induction on the string."
 ],
 "C04": [
  "proved",
  "`readLine` against an encoder in `Spec/Lines`; induction on the cells."
 ],
 "C05": [
  "proved",
  "`readLine`; case analysis, for every text."
 ],
 "C06": [
  "proved",
  "The parser on rows; induction on rows, for every state, fuel and file system; included files are related row by row."
 ],
 "C07": [
  "proved",
  "`csv.writer` and `csv.reader` as automata; induction on fields and rows."
 ],
 "C08": [
  "proved",
  "`convert` on trees; fold invariant. Applies to children without a declared property type."
 ],
 "C09": [
  "proved",
  "`convert` on trees; fold invariant per type."
 ],
 "C10": [
  "partial",
  "doc.as_dict is proved for every outcome. section.as_dict is proved when it returns; when it raises, the section keeps its terms as children (C10_exception_witness)."
 ],
 "C11": [
  "proved",
  "`docFind` equals a filter over a search list defined separately. `Searchable`: the terms searched have a section with a text name when a section filter is given (otherwise Python raises). Without a section filter nothing is assumed: `C11_always` holds in every document reached by calls that do not set a section to `None` (`C11_unsection_witness` shows what happens otherwise)."
 ],
 "C12": [
  "proved",
  "`docFind` with the derived names in arbitrary order; permutation of the filter (`C12_derived`); joined with the tables the parser leaves, so that the claim is about the declarations the document shows (`C12_declared`). Types inheriting from themselves are found twice (witness). Inheritances declared in a second load, or by the `decl` argument of the constructor, are not used (`C12_second_load_witness`, `C12_decl_witness`). `C12_always` states it for every reachable document and root-level types, from the recorded super-terms."
 ],
 "C13": [
  "proved",
  "The wrappers over `docFind`."
 ],
 "C14": [
  "proved",
  "Invariant `WF` by induction over histories of all operations, also raising ones."
 ],
 "C15": [
  "partial",
  "Proved for histories of orderly calls (Spec.Orderly): parsing files without declare files or a column called Section, and the editing calls with sections of the document and root-level names. The code breaks the claim for overwritten sections, non-root names, deletions with capitals, section assignment, terms of deleted sections and declare files (C15 witnesses)."
 ],
 "C16": [
  "proved",
  "`removeTerm` on reachable states, exact final state. Removing a root-level term of a deleted section puts the section back (`C16_deleted_section_witness`), hence the condition in the statement."
 ],
 "C17": [
  "proved",
  "`newTerm` on reachable states, exact final state and the result of `find` afterwards. Conditions: the section is in the document, the class is no section class, the value name is not a Python attribute (`reservedTvn`). `C17_always`: the search afterwards, in every document made by calls that take no section away."
 ],
 "C18": [
  "proved",
  "`setItem` on reachable states. The term is not its own child; the child class is no section class. Witnesses for names with blanks, self-named children and children named like the value."
 ],
 "C19": [
  "proved",
  "`getOrNewChild` on reachable states."
 ],
 "C20": [
  "proved",
  "`setItem` with `None`."
 ],
 "C21": [
  "proved",
  "`sortByTerm`: permutation, sortedness, stability."
 ],
 "C22": [
  "proved",
  "`sortSections`: permutation and order, for tables without repeated keys (every reachable one)."
 ],
 "C23": [
  "proved",
  "`addArg`, `removeArg` on column lists. With outer blanks `add_arg` is not idempotent (witness)."
 ],
 "C24": [
  "partial",
  "Holds when the name is already lower-case; with an upper-case letter a new section replaces the existing one (C24_replaces, C24_witness)."
 ],
 "C25": [
  "partial",
  "Holds when the name is already lower-case; with an upper-case letter the terms stay (C25_terms_stay, C25_witness)."
 ],
 "C26": [
  "proved",
  "`addSection`, `getSection`, `docContains`."
 ],
 "C27": [
  "proved",
  "Parser invariant `Attach` over the heap, for every start state reached without `add_child`. Left out: section objects, header rows, terms made by a column called `Section`."
 ],
 "C28": [
  "proved",
  "Invariant: a child that is not its own parent is newer than its parent (`Grow`, `Tree`); `add_child` by hand excluded. `C28_self_witness`: row `Foo.Foo`."
 ],
 "C29": [
  "proved",
  "The parser on ordinary files (`plainFile`) through the reference reader of C59. `C29_root_name_witness`: a record called `Root` takes over elided rows."
 ],
 "C30": [
  "proved",
  "Both files are ordinary; simulation through the reference reader; equality up to object numbers (`SameDoc`). `C30_explicit_witness` shows why the next row must name a term."
 ],
 "C31": [
  "proved",
  "Reference reader."
 ],
 "C32": [
  "proved",
  "Reference reader extended by includes (`Spec/Include`), induction on nesting. `C32_elided_witness`, `C32_header_witness` show why the conditions are needed."
 ],
 "C33": [
  "proved",
  "A relation `Stops` says where reading breaks; total trichotomy for files of ordinary and include rows."
 ],
 "C34": [
  "proved",
  "Monotonicity in the fuel, rank argument; `C34_loop_witness`: two files including each other by URL."
 ],
 "C35": [
  "partial",
  "Proved for rows with a full name and for argument cells; false for rows with an elided parent (C35_elided_witness)."
 ],
 "C36": [
  "partial",
  "False as stated: the sections and root-level terms of a declare file end up in the document (C36_witness). `C36_load_witness`: the same for declarations given to the constructor. `C36_additive_partial`: loading declare files changes no existing term, removes none, and neither removes nor replaces a section, also when it fails."
 ],
 "C37": [
  "proved",
  "One row of the parser from an arbitrary state: reading the row is reading the renamed one, up to spelling and class (`C37_class_witness`). Not for include, declare and section rows and section classes."
 ],
 "C38": [
  "proved",
  "`addDeclaredTerm`; the loop over the growing list with an index; termination, children, frame."
 ],
 "C39": [
  "proved",
  "`derivedOf`: sort and group; inverse of the table for dictionaries. In every document made by any sequence of calls (`C39_always`)."
 ],
 "C40": [
  "partial",
  "Proved for the value set name the code actually looks up; a set never matches by its own name (C40_witness)."
 ],
 "C41": [
  "proved",
  "Registry histories against a map specification, and no other call changes the registry (C41_calls). For every reachable document: `C41_always`."
 ],
 "C42": [
  "proved",
  "`updateVersion` on reachable documents; exact result and second run. Conditions: no type derived from the version term."
 ],
 "C43": [
  "proved",
  "`identityName` equals the join of slugs in order; characters by C03."
 ],
 "C44": [
  "partial",
  "The arithmetic is proved for plain and semantic versions, and that a version which is no number is refused (C44_refuses); that the document is not altered is false: the new version is written to the document (C44_witness)."
 ],
 "C45": [
  "proved",
  "`updateName` twice (`updateName_again`), through frame lemmas for `find` (`SameFind`). `C45_moving_witness`: `+1` moves each time."
 ],
 "C46": [
  "proved",
  "`ensureIdentifier`, the UUID is a parameter."
 ],
 "C47": [
  "proved",
  "`entryRows`; partition of the property map."
 ],
 "C48": [
  "proved",
  "`termRows` on trees; of several terminal children with one name only the last is written (`C48` witness, stated in the theorem)."
 ],
 "C49": [
  "proved",
  "`descendents`, `allTerms` against an inductive relation; order and uniqueness from C28's invariant."
 ],
 "C50": [
  "partial",
  "Proved (up to the order of children, and stable from the first file on) for outlines with ordinary names and values, also with declared value names; C50_declared_partial covers documents that begin with Declare rows whose files are quiet (Spec.Quiet: they add declarations and nothing else to the document). C50_duplicate_witness, C50_root_suffix_witness and C50_same_name_witness show documents that are not preserved."
 ],
 "C51": [
  "proved",
  "`props`, `argProps`, `allProps`."
 ],
 "C52": [
  "partial",
  "Proved for all terms that are not sections; a section raises AttributeError for an absent common property (C52_section_witness). C52_underscore: names with one leading underscore are read like others."
 ],
 "C53": [
  "proved",
  "Reference reader."
 ],
 "C54": [
  "partial",
  "Formats, errors, effects on files and crash points are proved. That the file holds what the document serialises to afterwards is false: the text is made before the document is given its identifier and name (C54_stale_witness)."
 ],
 "C55": [
  "partial",
  "Proved for names that the URL library reads as that very path; a file: URL overwrites an existing file (C55_url_witness), an empty name overwrites the template (C55_empty_witness)."
 ],
 "C56": [
  "partial",
  "Proved what a successful conversion lists, when it succeeds, and that a missing name or Schema section raises ConversionError. The code fails for tables with a single undeclared column and ignores Identifier because of a misspelt key (C56_single_witness, C56_identifier_witness)."
 ],
 "C57": [
  "proved",
  "`flatten` on trees. Empty keys drop components (witness)."
 ],
 "C58": [
  "partial",
  "Target naming is not injective on suffixes (C58_target_witness); the restricted statement is proved."
 ],
 "C59": [
  "proved",
  "The parser against a reference reader of 60 lines (`Spec/Reader`), simulation by induction on rows (`Lemmas/Plain*`, `Reader`)."
 ],
 "C60": [
  "proved",
  "`termContains`. `C60_properties_witness`: with a child called `properties` the test is a substring test."
 ],
 "C61": [
  "proved",
  "`cleanUnused` on reachable documents; conditions `SchemaOk`. `C61_padded_witness`: padded column names survive. Without a Schema section: `KeyError` (`C61_no_schema`)."
 ],
 "C62": [
  "proved",
  "`cleanse`: a calculus of operations that raise no `MetatabError` (`Lemmas/NoMeta`), stability through C45. `C62_unslugged_witness`: without `Root.Dataset` the name is no slug."
 ],
 "C63": [
  "partial",
  "Full claim: every document. Proved for outlines that are `lineWritable`: as for C50, and no `|` or line break in values, no `:` in names; value names may be declared. `C63_declared_partial` covers documents that begin with Declare rows whose files are quiet (as C50_declared_partial). Beyond that the claim is false for the code: `C63_pipe_witness`, `C63_break_witness` (the writer escapes nothing)."
 ],
 "C64": [
  "partial",
  "Full claim: defaults are honoured everywhere. `C64_section` is for qualified names without derived terms; `C64_inside` needs neither. False for `section.get`, whose default is never used (`C64_section_default_witness`). `C64_orderly`: exact in every orderly document."
 ],
 "C65": [
  "partial",
  "What the code does is proved: the value asked for is part of the search (`C65_found`, `C65_new_partial`). The claim itself is false for the code: `C65_map_witness` (the old value still shows and another term appears), `C65_blanks_witness`, `C65_none_witness`. `C65_orderly_partial`: both cases in every orderly document."
 ],
 "C66": [
  "partial",
  "`C66_declared`, `C66_new` hold in every state. Section rows take the columns declared in earlier loads only: the claim is false for the code for a section declared by the document itself (`C66_same_load_witness`) and for rows padded with blank cells (`C66_padded_witness`)."
 ],
 "C67": [
  "partial",
  "`C67_found`, `C67_exists` say exactly where the code looks. The documented order is proved when the package has no file of the name (`C67_documented_partial`); otherwise it is false for the code: the package comes before the directory of the document (`C67_shadow_witness`)."
 ],
 "C68": [
  "proved",
  "For names and classes that make ordinary terms (`KidOk`, `KwOk`, `TermOk`); `C68_mismatch` for other parents."
 ],
 "C69": [
  "partial",
  "`C69_reads_partial`: mappings of scalars and of lists of mappings of scalars that have the value entry. Beyond that the claim is false for the code: mappings under a name (`C69_mapping`, `C69_mapping_witness`), lists of scalars (`C69_stops`, `C69_scalars_witness`), elements without the value entry (`C69_unnamed_witness`), terms declared without `Root.` (`C69_bare_witness`)."
 ],
 "C70": [
  "proved",
  "Accumulation for parsing and for load_declarations, no change on errors, and no additions without Declare rows. For the last part the document must contain no objects made from declare files. C70_calls: no other call changes the tables."
 ],
 "C71": [
  "partial",
  "Adding and refusing are proved. The last sentence is false for the code: move_term leaves the term in the list of the old section and keeps its old section attribute (C71_move_witness)."
 ],
 "C72": [
  "partial",
  "Proved for local files; idempotence and conversion for documents whose outline is writable (C50, C63). False for the code: a document that is not local is not printed (C72_remote_witness); -d without -j or -y prints nothing (C72_declaration_witness). -t prints a line and then fails for a file that could be opened (C72_terms_witness). What exit code 0 means is stated by C72_success."
 ],
 "C73": [
  "partial",
  "Proved for tables with names. With a table without a name the message cannot be made and TypeError is raised (C73_unnamed_witness). `C73_always`: in every document made by calls that take no section away."
 ],
 "C74": [
  "partial",
  "Proved for new_child, new_term, get_or_new_child and get_or_new_term without properties (or of a new child), section items, new sections, sorting, columns and classes (C74_calls_partial), for errors the model tracks exactly. False for the code where a call consists of several steps: properties of an existing child or term, item assignment with a name or value that is stored differently, reading rows, deleting a section that lists a moved term (C74_*_witness). C74_answers_partial: after a refused call of this kind the document gives the same answers as before."
 ],
 "C75": [
  "proved",
  "Every reachable document, all rows, files and declare files, also when reading raises. Search: root-level names without derived terms."
 ],
 "C76": [
  "proved",
  "For resolved paths without symbolic links; permissions are not modelled."
 ],
 "C77": [
  "partial",
  "Proved unless the path is a file. Then the claim is false for the code: it returns without making a directory (C77_file_witness)."
 ],
 "C78": [
  "proved",
  "For resolved paths without symbolic links."
 ],
 "C79": [
  "partial",
  "Proved for files, directories and paths that lead nowhere, for every hash function whose update takes pieces. False for the code for a path that goes through a file: NotADirectoryError is not caught (C79_through_witness)."
 ],
 "C80": [
  "partial",
  "Paths, URLs, handles and refusals are proved. For a string the claim is proved if no readable file has that name; otherwise it is false for the code: the file is read (C80_text_witness). The name of a file that cannot be read is taken as text (C80_missing_witness)."
 ],
 "C81": [
  "partial",
  "Agreement, lists and iteration are proved for every reachable document. That each section is met once and found under its own name is proved for orderly histories; it is false after assigning to the value of a section (C81_name_witness). Lists of lists are not modelled."
 ],
 "C82": [
  "partial",
  "Proved for an existing target outside the source without names in common, with ignore below the first level. False for the code otherwise: a missing target may or may not be made (C82_target_witness), a directory that is already there stops the copy (C82_again_witness), ignore is not asked on the first level (C82_ignore_witness). shutil is described by its effect; no symbolic links."
 ],
 "C83": [
  "proved",
  "For calls whose arguments belong to the document they are made on; see C84 for objects handed from one document to another."
 ],
 "C84": [
  "partial",
  "Proved when the document has a section of that name. Otherwise the claim is false for the code: the section of the other document becomes a section of both, and terms made in it go to the wrong document (C84_stolen_witness). C84_new_document shows a new document owns its root section; C84_same_answer that taking a term over succeeds or raises exactly as adding it does within the document alone."
 ],
 "C85": [
  "proved",
  "What __import__ and getattr do is a parameter; C85_resolved connects the lookup with the one of the model of documents, where classes are registered as objects."
 ],
 "C86": [
  "proved",
  "For files of ordinary rows and include rows, without declarations. Witnesses show that a file cannot be cut at other places."
 ],
 "C87": [
  "partial",
  "Proved for the declared term itself, with the state left behind. For a child that is inherited and has lost its section the code raises AttributeError instead (witness)."
 ],
 "C88": [
  "partial",
  "Proved for files of ordinary rows without argument cells before the first section or header row (or whose last section has no columns); the exact output is proved for all files of ordinary rows. Otherwise the columns of the last section are applied to the cells at the start of the file (witness)."
 ],
 "C89": [
  "partial",
  "Rows, columns and the file being read: proved for all inputs and outcomes (C89_rows); exact places of all terms for files of ordinary rows. False for the code: file_name is a slug, so that it can differ from the name of the file and be the same for two files (C89_name_witness; it is the name for names of lower-case letters, digits, _, . and single hyphens), a section has its row number for its column (C89_section_witness), and terms of included files have the class name of the row generator, in lower case, for file_name (C89_include_witness)."
 ],
 "C90": [
  "partial",
  "Reason, row and message proved for all inputs (C90_same, C90_message); the term is that of the row at fault whenever the file of the row cannot be read, at any depth (C90_unreadable_partial, C90_dict_partial). False for the other reasons: the error names no term in the file that is loaded (then errors_as_dict raises, C90_no_term_witness) and the term yielded before the row in an included file (C90_term, C90_other_row_witness)."
 ],
 "C91": [
  "proved",
  "For all disks, paths and declare files whose reading leaves only declarations (Declares, Spec/Template): the shipped template is read as the outline of a new file (C91_template), new_metatab_file and metatab -C write exactly the text of that outline (C91_new, C91_command), and the text is read as the same outline and written the same again (C91_again). The identifier in the file is empty: the text is computed before cleanse makes one (C54_stale_witness)."
 ],
 "C92": [
  "partial",
  "Proved for names that no term of the section was given (C92_absent_partial). False otherwise: nothing is ever removed (C92_nothing, all documents and names). The method that is called, delete_term, does not exist, so the call raises AttributeError, or TypeError if the section has a term of that name (C92_fails, C92_witness); a short name such as Creator never matches a term that was read, whose name is root.creator (C92_short_witness). `C92_orderly`: every orderly document."
 ],
 "C93": [
  "partial",
  "Proved for the tables: a Declare row with a given name and the constructor argument leave equal tables of declared terms and sections, for all declare files without include, declare and root.root rows (C93_declare_row_partial); with a source, the document keeps what the declare files declared unless the source or the parser's initial table has the name (C93_tables_partial). False for the rest (C93_witness, C93_builtin_witness): given to the constructor, synonyms are not replaced, child terms do not get their declared value names, inheritance is not used by find, the terms declared for the root section are lost and declarations of built-in names are undone; columns declared for a section are used by sections of the source only when given to the constructor."
 ],
 "C94": [
  "proved",
  "For every outline whose names are single name parts other than section and whose values are stripped and not empty: C94_document from a new document; C94_term and C94_section for any document reached without add_child whose declared value names are usable (Spec.Usable). C94_written and C94_lines compose with C50 and C63 for writable outlines."
 ],
 "C95": [
  "proved",
  "C95_term, C95_section_term, C95_child, C95_item, C95_section: the first call is only assumed to have returned; the second then returns, and Spec.Untouched relates the document before and after (objects made meanwhile may remain, nothing refers to them). C95_answers: what Untouched means for a client, in documents reached without add_child by hand. C95_replaced_witness and C95_overwritten_witness show that the conditions on the names are needed."
 ],
 "C96": [
  "partial",
  "C96_outline (any document reached without add_child whose terms have no declared value names and types), C96_calls and C96_built (documents made by calls: nothing assumed about value names and types) are full; C96_csv_partial, C96_lines_partial and C96_exact_partial need documents that are writable in the sense of C50/C63. Duplicate terminal children and lists that mix terms with and without children are changed by writing: C96_duplicate_witness, C96_order_witness. Missing: declared value names and types."
 ],
 "C97": [
  "proved",
  "C97_value, C97_child, C97_dropChild, C97_term, C97_section, C97_dropTerm, C97_dropPart, C97_order, C97_sort and C97_setChild for single edits at any position, C97_edits for any sequence, for editable documents (Spec.Editable: reached without add_child, usable declared value names, no declared sections beyond the initial ones, terms of sections listed in the document, section classes only for the two section names; every new document and every document read from the rows of a writable outline is editable). C97_addColumn and C97_dropColumn for columns of sections without a header row (the outline does not tell whether a section has one, so these are not among the edits of C97_edits). C97_new gives the dict, C97_saved and C97_loaded the files of writable outlines. Names must be single parts other than section, and the section must have no column called Section: C97_section_column_witness."
 ],
 "C98": [
  "proved",
  "C98_nested, C98_root and C98_unqualified for documents whose lists are in order (Spec.Indexed); C98_orderly, C98_read, C98_edited and C98_loaded_edited show this for orderly histories, documents read from plain rows, edits of new documents and of documents that were written and read; C98_saved compares the searches before and after writing and reading a writable document. Names *.B are left out: they also find sections (C98_star_witness). Names are single parts."
 ],
 "C99": [
  "proved",
  "C99_value, C99_property, C99_set, C99_set_new, C99_dropChild, C99_term, C99_dropTerm, C99_section and C99_dropPart, each for the run of the edit and the CSV texts before and after, with Spec.OneCell (one cell differs) and Spec.Gains (rows are inserted at one place). Hypotheses: Spec.Editable (C97), value names written as @value, outlines writable (C50) before and after. A property that itself gets a child leaves its cell, so more than one place changes: C99_moved_witness; this is why new properties are for root-level terms and terms with children. For the Lines format: C99_value_lines, C99_property_lines, C99_dropChild_lines, C99_term_lines, C99_dropTerm_lines, C99_section_lines and C99_dropPart_lines, about str.splitlines of the two texts, for outlines that survive in lines (C63)."
 ],
 "C100": [
  "partial",
  "C100_order_partial, C100_parents_partial and, for the outlines and for searches, C100_outline_partial and C100_search_partial: proved for pieces that are ordinary files by themselves, so that no row refers to a parent in another piece. False otherwise: the parser forgets the last parent at a section row, but not the last term of each name, so Table.Column in one section becomes a child of the table in another (C100_parent_witness), and with the sections exchanged the file cannot be read (C100_order_witness)."
 ],
 "C101": [
  "proved",
  "C101_read, C101_search, C101_dict, C101_edits, C101_saved and C101_one_cell, for Spec.plainFile and Spec.treeFile; the outline Spec.fileOutline is computed from the rows by the reference reader. Saving needs an outline that can be written (Spec.writable, C50). The conditions are needed: C101_stray_witness (a row that refers to another section) and C101_elided_witness (an argument cell of an elided row names another parent than it has). C101_declared, C101_declared_search and C101_declared_saved: files that begin with Declare rows for quiet declare files (C50), with no argument cells before the first section row (C101_head_witness). C101_declared_edits and C101_declared_edited: edits of such files, if the document of the Declare rows alone is Editable (C97) and satisfies Spec.NoSecTvn. C101_declared_root: searches at root level also find the terms of the declare files (C101_file_terms_witness); these must be in sections of their own (Spec.OwnSections)."
 ]
}