# Formal model of Metatab/metatab in Lean 4

The model is in `lean/Verif`: `Py` (Python built-ins), `Model` (the code, every definition cites file and lines of `/repo`), `Spec` (what the
properties mean, written without the model's helpers), `Lemmas`, and `Props` (the property theorems, named after the property, with a concrete
example beside each). `MANIFEST.json` lists the theorems of each property.

## Trusted base

* The kernel of Lean 4.33.0. The theorems use at most the axioms `propext`, `Quot.sound` and `Classical.choice`; `AXIOMS.md` lists the axioms of
  each property theorem as `#print axioms` reports them. No axiom is added; there is no `sorry`, `admit`, `native_decide` or `bv_decide`.
  Concrete examples and witnesses are evaluated by the kernel (`decide +kernel`).
* The reading of `/repo` recorded in the comments of `Model/*`. Nothing ties the model to the code mechanically.
* The reading of the Python built-ins used by that code (`str.strip/lower/title/split/splitlines/replace/format`, `int()`, `list.remove`, `list.sort`,
  ordered dicts, `csv.writer`, `csv.reader`, the regular expressions), in `Py/*` and `Model/Csv.lean`.
* The specifications in `Spec/*` and the definitions used in the statements of the theorems.

## How the model is built

* **Text** (`Py/Str.lean`): a Python `str` is a `List Char`. White space is Python's full Unicode set. Case mapping (`lower`, `title`) is exact on ASCII
  and the identity elsewhere. `int()` accepts ASCII digits with sign and underscores.
* **Values** (`Model/Val`): `None`, strings, integers, `False` and section objects, which are the values this code stores in `Term.value`.
* **Pure functions** (`Names`, `Slug`, `TextRows`, `Csv`, `Flatten`, `Url`): total functions; exceptions are values of `Except Err`.
* **Objects** (`Heap`): term objects live on a heap `Nat → Obj`, so that identity, aliasing and mutation through parent, children, section and
  document lists are those of the code. An operation is a function `St → Res α` where `Res` is `ok a s | err e s`: the state reached when an
  exception is raised is kept, and statements speak about it.
* **Operations** (`TermOps`, `DocOps`, `Find`, `Version`, `Clean`, `Views`): one definition per method, branch by branch, `assert` included.
* **Parser** (`Decl`, `Parser`): the two generators of `parser.py` and the loop of `load_terms` are coroutines in the code. Each `yield` becomes a call
  of the consumer, which is the interleaving Python performs. Row sources and the files they come from are parameters (`Files`). The nesting of
  includes is driven by fuel, which stands for Python's recursion limit; C34 says that the fuel does not matter.
* **Readers** (`Tree`, `AsDict`, `Rows`, `DataPackage`): the heap below a term is unfolded to a tree, `RecursionError` when it is cyclic; readers run
  on the tree.
* **Histories** (`History`): `Op` has one constructor per API call; `Reach P s` holds of the states reached from a new document by calls satisfying
  `P`, including calls that raise. Invariants are proved by induction over it.
* **Lists of columns** are values in the model. In the code the list of a new section is shared with the table of declared sections
  (doc.py:268) and that of a header with `header_args` (parser.py:454). No method changes such a list in place: `add_arg` and `remove_arg` copy it
  first (terms.py:727, 738), so the sharing cannot be observed.
* **Processes** (`World`, `Foreign`): several documents and the one registry of classes they share; several documents and the one heap of objects.
* **Files** (`Write`): a file system as a map, a call of `write` as a list of effects, so that being cut short is a prefix.

## What is modelled

| source | modelled | not modelled |
|---|---|---|
| `terms.py` | `Term`: constructor, names, `add/new/remove/get_or_new_child`, `find*`, item and attribute access, `in`, properties, `descendents`, `rows`, `lines`, `as_dict`; `SectionTerm`: columns, adding, moving, removing, `terms=`, cleaning and sorting of terms, items, rows, `as_dict`; `RootSectionTerm` | `repr`, `term_class` arguments beyond identity |
| `doc.py` | constructor (root section, declarations), sections, terms, `find*`, `get*`, loading and declarations, `cleanse`, `clean_unused_schema_terms`, identifier, version, names, `as_dict`, `rows`, `as_csv`, `as_lines`, `write` | `path`, `doc_dir`, `mtime`; `lru_cache` of `super_terms` (cleared whenever its inputs change); `load_rows` (gives the document to `TermParser` in place of the source, which then goes to the URL parser) |
| `parser.py` | class registry, synonyms, inheritance tables, the generator of terms, includes, declarations, value sets | error texts other than those of `IncludeError` (C90) |
| `rowgen.py` | the Lines reader and where it gets its text, the YAML source | parsing of YAML; byte strings and file descriptors as sources of text |
| `util.py` | `slugify`, `flatten`, `declaration_path`, `make_dir_structure`, `ensure_dir`, `walk_up`, `md5_file`, `copytree` (the file system and the hash function are parameters; `shutil` is described by its effect) | logging |
| `appurl.py` | path handling of `MetatabUrl` | URL parsing (package rowgenerators) |
| `datapackage.py` | all | |
| `cli.py` | `metatab`, `new_metatab_file`, `make_metatab_file`, `get_table` | `argparse`, the libraries behind `-j`, `-y`, `-p`, messages on standard error |
| `exc.py`, `resolver.py` | exception classes; file lookup is a parameter | |

User-defined term classes are assumed to add behaviour only under names of their own. Cells that are not strings (Excel) are not modelled. Where an
object attribute of Python would be overwritten by a term's value name, or an object would be formatted as text, the model stops with the error
`unmodelled`; theorems say so by a hypothesis (`reservedTvn`) or have it as a possible error.
Not covered by that: a declaration that gives `Root.Section` itself the value name `args`, `terms`, `children`, `header_args` or
`default_term_value_name`, and a section column called `_doc`; such a name would divert assignments to section objects. Integers beyond the range of
floating point numbers as version (`float(mv)`, doc.py:749, raises `OverflowError`) are not modelled either. `flatten` and the YAML source use
`collections.MutableMapping` and `yaml.load` without loader, which newer libraries no longer have; the model takes the versions that have them.

## How the theorems are tested

`tools/mutate.py` applies realistic bugs to the model in a scratch copy and rebuilds; `seeded/LOG.jsonl` records each attempt with the declarations
that failed and the theorems tightened because of it; `seeded/mutants*.json` hold the edits. With
`--deep`, helper lemmas that fail are skipped in the scratch copy until a property theorem fails, so that a bug caught only by the proofs of helpers
counts as not caught.

## Properties

For each property: what is modelled and how it is proved; side conditions of the theorems; for partial ones what is missing and why. A *witness* is a
theorem that shows, for a concrete input, that the code does not do what one would expect.

* **C01 Term names have one canonical form.** `splitTerm`, `normalizeTerm` on all strings; direct proof over `splitOn`.
* **C02 term_is is exactly wildcard matching of qualified names.** `termIs` equals a two-line wildcard matcher. Names and patterns have no `.` inside their parts; patterns have no outer blanks (a blank in the pattern makes the code miss).
* **C03 slugify yields a stable slug.** `slugify` with NFKD as a parameter that leaves ASCII alone; induction on the string.
* **C04 The Lines format reads back any row written with escaped pipes.** `readLine` against an encoder in `Spec/Lines`; induction on the cells.
* **C05 Comment, blank and section-marker lines of the Lines format.** `readLine`; case analysis, for every text.
* **C06 Comment and blank rows never change a document.** the parser on rows; induction on rows, for every state, fuel and file system; included files are related row by row.
* **C07 CSV output reads back as the same rows.** `csv.writer` and `csv.reader` as automata; induction on fields and rows.
* **C08 as_dict groups repeated children losslessly.** `convert` on trees; fold invariant. Applies to children without a declared property type.
* **C09 as_dict honours declared child property types.** `convert` on trees; fold invariant per type.
* **C10 doc.as_dict shows every section's terms and leaves the document alone.** `docAsDict`, `sectionAsDict` on the heap, exception path included. Partial: when `section.as_dict` raises, the section keeps its terms as children (`C10_exception_witness`); everything else is proved.
* **C11 find returns exactly the matching terms, in order.** `docFind` equals a filter over a search list defined separately. `Searchable`: the terms searched have a section with a text name when a section filter is given (otherwise Python raises); it holds in all documents reached by orderly calls (`C11_orderly`, `Props/FindOrderly`). Without a section filter only the existence of the section matters, and that is an invariant of all histories without an assignment `t.section = None` (`Reach.sited`, `Lemmas/Reach`; `C11_always`, `Props/FindAlways`); after such an assignment every search raises (`C11_unsection_witness`).
* **C12 Searching for a super-term also returns its derived terms.** `docFind` with the derived names in arbitrary order; permutation of the filter. Types inheriting from themselves are found twice (witness). `C12_declared` joins this with the tables the parser leaves: after the first load of a document, the names searched are those the document's own declarations give an `InheritsFrom`. Inheritances declared in a second load do not get into the table (`C12_second_load_witness`, metatab/parser.py:125-126), nor do those of the `decl` argument of the constructor (`C12_decl_witness`, metatab/doc.py:157-176). `C12_always` states the search result for every reachable document and root-level types, from the recorded super-terms (the attribute `super_terms`).
* **C13 find_first, get, get_value and find_first_value agree with find.** the wrappers over `docFind`.
* **C14 A term is never listed twice.** invariant `WF` by induction over histories of all operations, also raising ones.
* **C15 Document and sections list the same root-level terms.** invariant by induction over histories (`Spec/Agree`, `Lemmas/Agree*`). Partial: for histories of orderly calls (`Spec.Orderly`): parsing without declare files or a row that names a column `Section` (`Spec.NoSectionRow`; ordinary term rows may have any cells), edits with sections of the document and root-level names. The code breaks the claim elsewhere: seven witnesses (overwritten section, non-root name, deletion with capitals, section assignment, term of a deleted section, moving, declare files).
* **C16 Removing a term removes it everywhere.** `removeTerm` on reachable states, exact final state. Removing a root-level term of a deleted section puts the section back (`C16_deleted_section_witness`), hence the condition in the statement.
* **C17 A new term is immediately visible.** `newTerm` on reachable states, exact final state and the result of `find` afterwards. Conditions: the section is in the document, the class is no section class, the value name is not a Python attribute (`reservedTvn`). `C17_always` (`Props/AlwaysFound`): the search afterwards, without a hypothesis on the terms.
* **C18 Item assignment on a term is a map update.** `setItem` on reachable states: `C18_child` for properties, `C18_value` under the name of the value, `C18_value_word` under the word `value`. The term is not its own child; the child class is no section class. Witnesses for names with blanks, self-named children and children named like the value.
* **C19 get_or_new_child finds or creates, once.** `getOrNewChild` on reachable states.
* **C20 Assigning None deletes the property.** `setItem` with `None`.
* **C21 sort_by_term reorders without losing terms.** `sortByTerm`: permutation, sortedness, stability.
* **C22 sort_sections reorders without losing sections.** `sortSections`: permutation and order, for tables without repeated keys (every reachable one).
* **C23 Section columns behave as a case-insensitive set.** `addArg`, `removeArg` on column lists. With outer blanks `add_arg` is not idempotent (witness).
* **C24 get_or_new_section never replaces an existing section.** `getOrNewSection`. Partial: the code looks the name up as given while keys are lower-case, so names with capitals always replace the section (`C24_replaces`).
* **C25 Deleting a section deletes its terms.** `delSection`. Partial for the same reason: with capitals in the name the terms stay (`C25_terms_stay`).
* **C26 Sections are looked up by name ignoring case and coalesce.** `addSection`, `getSection`, `docContains`.
* **C27 Every parsed non-section row is attached to exactly one parent.** parser invariant `Attach` over the heap, for every start state reached without `add_child`. Left out: section objects, header rows, terms made by a column called `Section`.
* **C28 Parsing never builds a cyclic document.** invariant: a child that is not its own parent is newer than its parent (`Grow`, `Tree`); `add_child` by hand excluded. `C28_self_witness`: row `Foo.Foo`.
* **C29 Elided rows attach to the latest row that named a term.** the parser on ordinary files (`plainFile`) through the reference reader of C59. `C29_root_name_witness`: a record called `Root` takes over elided rows.
* **C30 Argument cells, elided rows and explicit rows are interchangeable.** both files are ordinary; simulation through the reference reader; equality up to object numbers (`SameDoc`). `C30_explicit_witness` shows why the next row must name a term.
* **C31 A repeated Section row reopens the section.** reference reader.
* **C32 Include splices the included rows.** reference reader extended by includes (`Spec/Include`), induction on nesting. `C32_elided_witness`, `C32_header_witness` show why the conditions are needed.
* **C33 Include failures surface as IncludeError.** a relation `Stops` says where reading breaks; total trichotomy for files of ordinary and include rows.
* **C34 Parsing terminates on every set of files.** monotonicity in the fuel, rank argument; `C34_loop_witness`: two files including each other by URL.
* **C35 Declared properties govern parsed terms.** one row of the parser from an arbitrary well-formed state. Partial: for elided rows the code looks up `<elided_term>.x` (`C35_elided_witness`).
* **C36 Declarations do not leak into the document.** the parser on declare files. Partial: sections and root-level terms of declare files do end up in the document (`C36_witness`; `C36_load_witness` for declarations given to the constructor). Proved: nothing that was there changes (`C36_additive_partial`, see C75).
* **C37 Synonyms rename terms on input.** one row of the parser from an arbitrary state: reading the row is reading the renamed one, up to spelling and class (`C37_class_witness`). Not for include, declare and section rows and section classes.
* **C38 Derived terms inherit the declared children of their super-term.** `addDeclaredTerm`; the loop over the growing list with an index; termination, children, frame.
* **C39 Derived-term table is the inverse of the super-term table.** `derivedOf`: sort and group; inverse of the table for dictionaries. `C39_first` ties the table of a first load to the declarations. `C39_always`: the same in every document made by any sequence of calls, loads included, by an invariant over histories (the names are lower-case, the table is a dictionary).
* **C40 Value sets keep the first display value.** `addValueSetValue`. Partial: a value set never matches by its own name and `.Value` rows do nothing (`C40_witness`, in general `C40_ignored_partial`).
* **C41 Term class registration.** registry histories against a map specification. `C41_calls`: no history of other calls, including reading rows and declarations, changes the registry. `C41_always` discharges the hypothesis on super-terms for every reachable document.
* **C42 update_version builds the dotted version.** `updateVersion` on reachable documents; exact result and second run. Conditions: no type derived from the version term.
* **C43 Identity names are built from the naming terms in order.** `identityName` equals the join of slugs in order; characters by C03.
* **C44 Version arithmetic.** `asVersion`; printing and reading of integers. A version that is no number cannot be moved (`C44_refuses`). Partial: the document's version is changed (`C44_witness`).
* **C45 update_name is stable.** `updateName` twice (`updateName_again`), through frame lemmas for `find` (`SameFind`). `C45_moving_witness`: `+1` moves each time.
* **C46 ensure_identifier sets an identifier once.** `ensureIdentifier`, the UUID is a parameter.
* **C47 Section rows emit every property once.** `entryRows`; partition of the property map.
* **C48 Term rows cover the whole subtree.** `termRows` on trees; of several terminal children with one name only the last is written (`C48` witness, stated in the theorem). `C48_names`, `C48_orphan`: the names the rows are written under.
* **C49 Descendants and all_terms enumerate in document order.** `descendents`, `allTerms` against an inductive relation; order and uniqueness from C28's invariant.
* **C50 Writing and re-reading a document preserves it.** writer, CSV, parser: the document is described by an outline (`Spec/Outline`); writing shows the outline, the reference reader reads it back. Partial: ordinary names and values (`writable`), value names no terminal child has (`NamedValues`), children in any order but possibly reordered. `C50_declared_partial` (`Lemmas/Track`, `Lemmas/TrackDoc`, `Props/RoundTripDecl`): documents that begin with `Declare` rows, where the declare files are `Spec.Quiet`, that is, add declarations and nothing else. A declare file with a column called `Section` is not quiet: assigning `section` to its terms makes child terms and registers the file's own section in the document. Witnesses for repeated names, names ending in `root`, names equal to their parent.
* **C51 Property views agree.** `props`, `argProps`, `allProps`.
* **C52 Attribute access mirrors item access.** `getAttr`, `setAttr` with Python's attribute lookup explicit. Partial: sections raise `AttributeError` for absent common properties (`C52_section_witness`).
* **C53 Header rows rename the argument columns.** reference reader.
* **C54 write picks the format from the extension.** `writeDoc` as a list of effects. Partial: the file holds the text made before the identifier and name are set (`C54_stale_witness`).
* **C55 Creating a metatab file never overwrites.** `newMetatabFile` over a file map. Partial: file URLs and the empty name overwrite (`C55_url_witness`, `C55_empty_witness`).
* **C56 Data package conversion lists each data file with its schema.** `datapackage.py` in full (`Spec/Package`). Partial: single undeclared columns fail, `Identifier` is ignored because of a misspelt key (`C56_single_witness`, `C56_identifier_witness`).
* **C57 flatten lists every leaf with its path.** `flatten` on trees. Empty keys drop components (witness).
* **C58 Metatab URLs always resolve to a metadata file.** `MetatabUrl` on path strings. Partial: `target_file` with a suffix that is no metatab format (`C58_target_witness`).
* **C59 Ordinary files are read as the reference reader says.** the parser against a reference reader of 60 lines (`Spec/Reader`), simulation by induction on rows (`Lemmas/Plain*`, `Reader`).
* **C60 The membership test knows only the common names.** `termContains`. `C60_properties_witness`: with a child called `properties` the test is a substring test.
* **C61 Cleaning the schema leaves exactly the columns in use.** `cleanUnused` on reachable documents; conditions `SchemaOk`. `C61_padded_witness`: padded column names survive. Without a Schema section: `KeyError` (`C61_no_schema`).
* **C62 Cleaning a document settles its name.** `cleanse`: a calculus of operations that raise no `MetatabError` (`Lemmas/NoMeta`), stability through C45. `C62_unslugged_witness`: without `Root.Dataset` the name is no slug. `C62_no_dataset`: what happens to empty terms, exactly.
* **C63 Documents survive the Lines format.** `as_lines`, `TextRowGenerator`, parser: the lines are computed from the outline of C50 (`Lemmas/LineDoc`: `docText_shows`), split back into rows (`textRows_parts`), and the reference reader makes the same of `[name, value]` plus elided rows as of the row with its argument cells (`readAll_lines`). Partial: `lineWritable` outlines; `C63_declared_partial` (`Props/LineFileDecl`) adds `Declare` rows with quiet files, as for C50. `C63_pipe_witness`, `C63_break_witness`: the writer escapes neither pipes nor line breaks.
* **C64 Lookups below a term or section stay inside it and honour defaults.** `termGet`, `termGetValue`, `getItem`, `termFind`, `sectionFindFirst` against `ItemIs`, `FirstIs` (`Spec/Lookup`). Partial: `section.get` ignores its default (`C64_section_default_witness`). `C64_first_value`: `find_first_value` of a term. `C64_orderly` (`Props/AlwaysFound`): exact for every orderly document.
* **C65 Item assignment on a section sets that name.** `setItemAny` on sections through C11 and C17. Partial: the value is part of the search, so that assigning another value adds a term and leaves the old one first (`C65_map_witness`; `C65_blanks_witness`, `C65_none_witness`). `C65_orderly_partial` (`Props/AlwaysFound`): what happens in every orderly document.
* **C66 Declared sections come with their columns.** `addDeclaredSection`, `newSection`, `newSectionObj`, `rowTerm`. Partial: a declaration takes effect for `Section` rows only after the load that read it (`C66_same_load_witness`), and blank padding cells count as columns (`C66_padded_witness`).
* **C67 Declaration names resolve in the documented order.** `Model/FindDecl`: `declarationPath`, `findDeclareDoc` over an arbitrary file system. `C67_found` gives the order of the code, `C67_exists` that the result exists. Partial: the documentation puts files near the document before the package, the code does not (`C67_shadow_witness`).
* **C68 New children and new terms are exactly the ones asked for.** `newChild`, `newChildren`, `newTerm`: the state afterwards is given in closed form (`Spec.withKids`, `Spec.withAdded`), so nothing else changes; the properties become children in order.
* **C69 YAML files are read as the terms they list.** `Model/Yaml`: `yieldKVs`/`yieldJs` (the generator, with the exception it ends with), `yamlSections`, `yamlLoop`. `Spec/Yaml` says which terms a structure stands for (`YTable`); `C69_reads_partial` gives the document, `C69_sections` the section of each name, `C69_parent` that an entry's parent must have made a term. `C69_stops`: a list of scalars ends the reading with TypeError, after the terms before it and before the terms after it. Partial: see the four witnesses; a mapping directly under a name always raises `KeyError` (`C69_mapping`).
* **C70 Declarations accumulate and only declare files add to them.** `Props/DeclTables`. `C70_parse` and `C70_load` say which entry each name has afterwards (`Spec.Added`: the file's, else the document's earlier one) and that nothing is recorded on an error; the tables the file gives are the parser's (`s'.p`, the `declare_dict` of the `TermParser`). `C70_plain`: without `Declare` rows the tables gain only the built-in names. It needs a document none of whose objects came from a declare file; this holds for new documents and is kept by the theorem. `C70_calls` (`Props/DeclCalls`): no history of calls that read no file changes a table.
* **C71 Adding a term to a section puts it there with everything below it.** `Props/Move`. `C71_add_partial` describes the state after a successful `SectionTerm.add_term` completely (the section's list, the other sections, the document's list, the term, its descendants, all other objects); the descendants are a transitive closure of the children (`Under`) and the proof is by induction on the depth reached by `set_ownership`. `C71_refuse`: a term that is not root-level raises and changes nothing. Missing: the claim about moving, which is false (`C71_move_witness`).
* **C72 The metatab command prints or writes what was asked and nothing else.** `Model/Cli`, `Props/Cli`. The model takes the parsed command line, a file system and the URL library to the texts printed, the effects on files and the end of the program; JSON, YAML, `pprint` are parameters. `C72_fragment`, `C72_fails_partial`, `C72_readonly`, `C72_in_place` (every prefix of the effects), `C72_delivers_partial`, `C72_create`, `C72_find`, `C72_missing`, `C72_unreadable`; `C72_idempotent_partial` and `C72_convert_partial` compose the command with itself using C50 and C63. Names of files are specified by `Spec.FileIn` and `Spec.BaseOf`, not by the model's `suffix`. False for the code: `C72_remote_witness`, `C72_declaration_witness`, `C72_terms_witness` (`-t` prints a line and then raises).
* **C73 get_table finds the table or names those there are.** `Model/Cli`, `Props/Cli`. `C73_found`, `C73_missing_partial`, `C73_orderly` without hypotheses on the search and `C73_always` (`Props/AlwaysFound`) for every history without an assignment `t.section = None`. False for the code when a table has no name (`C73_unnamed_witness`).
* **C74 A refused call leaves the document as it was.** `Model/TermOps`, `Model/DocOps`, `Props/Atomic`. `Spec.Untouched` compares the states before and after: all old objects, the lists and the tables. `C74_answers_partial` (`Props/Undo`) turns it into equal answers to searches and listings. `C74_new_child`, `C74_new_term`, `C74_get_or_new_child_partial`, `C74_get_or_new_term_partial` and, over the calls listed in `Spec.AllOrNothing`, `C74_calls_partial`: a computation that constructs objects touches none of the old ones (`Ab`), and the step that links the new object is the last that can fail. False for the code where a call has several steps: `C74_properties_witness`, `C74_term_properties_witness`, `C74_item_witness`, `C74_blank_witness`, `C74_parse_witness`, `C74_delete_witness`.
* **C75 Reading rows only adds to a document.** `Spec/Additive.lean` says what only adding means; `Lemmas/Adds.lean` follows the parser and every document operation it calls with one invariant: terms made since the start have only such terms as children and only sections or such terms as sections, and the current section and the table of latest terms hold only sections and such terms. Proved for every reachable document, all rows and files, at every point of failure (`C75_read`), for declarations (`C36_additive_partial`) and for searches (`C75_find`).
* **C76 make_dir_structure makes its three directories and touches nothing else.** `Model/Dirs`: a file system is a list of entries with resolved paths, `os.mkdir` and `os.makedirs` act on it. `Spec/Dirs` says when a file is in the way (`Blocked`) and which directories are needed. `C76_made` gives what every path leads to afterwards, `C76_blocked` the failure, `C76_again` the second call.
* **C77 ensure_dir leaves a directory.** `C77_ensure_partial`; false when the path is a file (`C77_file_witness`).
* **C78 walk_up lists each directory up to the root once.** `C78_visits`, `C78_refuses`. The generator is modelled by what it yields and the exception it ends with.
* **C79 md5_file is the hash of the whole file.** The hash is any function whose `update` takes pieces (`Spec.Streams`); `C79_digest_partial` follows the loop over chunks. False for paths through a file (`C79_through_witness`).
* **C80 The Lines reader reads the file or the text it is given.** `Model/TextSource` has the attempts of the constructor, each as a function that may fail, tried in order. `C80_file`, `C80_name`, `C80_refused` (exactly which references raise). `C80_text_partial` for strings; false when the string is also the name of a file (`C80_text_witness`), and the name of a missing file is read as a term (`C80_missing_witness`).
* **C81 Indexing, membership and iteration of a document agree.** `C81_agree`, `C81_list` and `C81_absent` for every state, `C81_iter` for every reachable document from the invariant that keys are lower-case and unique. `C81_name_partial` for orderly histories (C15); `C81_name_witness` shows the failure after `section.value = other`.
* **C82 copytree copies a directory into another.** `Model/CopyTree`. `C82_copied_partial` says for every path what is there afterwards, by induction on the listed names; `C82_same` is the case without `ignore` and with an empty target; `C82_refused` says that a directory whose name is taken in the target makes the call raise. Three witnesses show where the claim fails.
* **C83 Documents of a process do not affect each other, except through the registered classes.** `C83_frame`, `C83_opened`, `C83_register` for one
  call on any process; `C83_project` by induction over the calls, however they are interleaved; `C83_alone` and `C83_orderly` by induction over the
  process, so that every theorem about the histories of one document holds for each document of a process. That the other calls keep the registry
  and the tables is `Lemmas/OpTables`. `C83_shared_witness` shows that registration is shared. Calls that hand an object of one document to another
  are the subject of C84.
* **C84 A term of another document is taken over.** `Model/Foreign` puts the objects of several documents on one heap and records the document each
  section belongs to. `C84_taken_partial` from the exact run of `docAddTerm` and C71, when the document has a section of that name. Otherwise the
  claim is false for the code: the section of the other document becomes a section of both (`C84_stolen_witness`).
* **C85 Classes registered by dotted name are imported at lookup.** `Model/Import`, over arbitrary `__import__` and `getattr` (`Modules`). `C85_dotted`,
  `C85_error` and `C85_undotted` say what a name imports to, against the relation `Spec.Path`; `C85_lookup` what `get_term_class` makes of it;
  `C85_resolved` that the lookups of the other models (where the registry holds classes) are the ones of the code when all names can be imported.
  Importing a module has no effect on the document in the model.
* **C86 Several files are read into one document.** `Lemmas/Again`: the end of a file of ordinary rows leaves the document in a state in which a new
  parser agrees with the reference reader again (`Resumable`), although the tables of declarations are no longer empty. `C86_reads` by induction over
  the files, included files in place; `C86_stops` for a file that cannot be read; `C86_pieces`: cutting before section rows gives the same document
  (`SameDoc`). `C86_elided_witness`, `C86_parent_witness` and `C86_section_witness` show what goes wrong with other cuts.
* **C87 A declaration that needs an undeclared section is refused.** `addDeclaredTerm` run symbolically: the exception and the exact state left behind,
  for an unknown section and for inheritance without a section. Not true for inherited children, where building the message fails
  (`C87_inherited_witness`).
* **C88 metatab -t lists the terms of the file.** `Model/Stream` (the parser run with a consumer that prints each term as it is yielded), `Spec/Stream`
  (the lines of a file, by the reference reader, with the file, row and column in front), `Lemmas/Stream`, `Lemmas/StreamFile`, `Props/Stream`. `C88_lines` gives the exact output for every file of
  ordinary rows, `C88_listing_partial` and `C88_command_partial` the listing for files without argument cells before the first section or header row;
  `C88_fronts` says that without the places there is one line per section row and per term.
  False for the code otherwise: `_param_map` survives the first run (`C88_columns_witness`).
* **C89 Terms know where they were read.** `Model/Where` (the parser with a list of the objects it builds, each with `file_name`, `row` and `col`),
  `Spec/Where` (rows and columns of the terms of a file), `Lemmas/Fixed` (reading changes nothing objects were built with), `Lemmas/Where`, `Lemmas/WhereFile`,
  `Props/Where`. `C89_same` shows that the list does not change what is read; `C89_rows` holds for all files, included files, documents and outcomes;
  `C89_plain_partial` gives the place of every term of a file of ordinary rows. False for the code: a section has its row number for its column, because
  `SectionTerm.__init__` passes `col=row` (`C89_section_witness`); terms of an included file have a class name for `file_name` (`C89_include_witness`);
  `file_name` is the slug of the name of the file (`Model/Place`, `C89_file_ref`), so two files can have the same one (`C89_name_witness`).
* **C90 An IncludeError names the row at fault.** `Model/Report` (the parser with the objects it builds and yields, and with the message and the `term` of an
  `IncludeError`; both handlers of `generate_terms` and `errors_as_dict`), against `Hinders` and `passed` (`Spec/Report`, from the cells of the row). `Lemmas/Firm`,
  `Lemmas/Report`, `Props/Report`. `C90_same` ties the model to `parseRows` and to C89; `C90_message` gives reason, row and message for all inputs.
  `C90_unreadable_partial` and `C90_dict_partial`: the term and the place are right whenever the file of the row cannot be read, at any depth. False for the code
  otherwise: for the other three reasons the `yield` comes after the `raise`, so the error names no term, or the term yielded before (`C90_term`,
  `C90_other_row_witness`), and `errors_as_dict` raises `AttributeError` on an error without a term (`C90_no_term_witness`). Not modelled: the text of the `OSError`
  is a parameter, and a file that fails in the middle counts as one that cannot be read.
* **C91 A new file has the terms and sections of the template.** `Model/Template` is the text of `metatab/templates/metatab.csv`; `Spec/Template` has the outline
  and the text of a new file. `declared_parse_full` (C50) reads the template after its `Declare` row for every declare file that leaves only declarations
  (`Declares`: quiet as in C50, no empty value names, nothing that stands for an identifier, name or dataset; what the real declaration document `metatab-latest`
  holds is not part of the repository). `C91_template`, `C91_new`, `C91_command` (through C55, C72 and `C62_no_dataset`), `C91_again`.
* **C92 Deleting an item of a section removes its terms of that name.** `sectionDelItem` in `Model/DocOps`, `Props/DelItem`. False for the code in every document: `C92_nothing`.
  What happens instead, for all names: `C92_absent_partial`, `C92_fails`; `C92_witness`, `C92_short_witness`. `C92_orderly` (`Props/AlwaysFound`): every orderly document.
* **C93 Declarations given to the constructor act like a Declare row.** `openWith` in `Model/Construct` (the constructor with `decl=`), `Props/Construct`.
  `C93_declare_row_partial` compares the two ways for a declare file without include, declare and root.root rows, by an invariant on the half-read declarations (`Drafts`): the tables are equal.
  `C93_tables_partial` follows from C70. False for the rest: the source is read by a second parser with tables of its own (`C93_witness`, `C93_builtin_witness`).
* **C94 A document built by calls is the one asked for.** The client programs are in `Spec/Build` (`addItem`, `addParts`, `buildDoc`), the outline is that of C50 (`Shows`). `Props/Build`:
  induction over the tree, each call by its exact effect (C68, C17); the claim about new objects is made for every later state that leaves them alone. `C94_term`, `C94_section`, `C94_document`, `C94_written`, `C94_lines`.
* **C95 Taking back what was just made leaves the document as it was.** `Props/Undo`. The effect of the first call is read off its successful run (`TermMade`, `KidMade`), without conditions on the
  name; the second call is run on that state. The conclusion is `Spec.Untouched` of C74. `C95_answers` (`Lemmas/Answers`) turns it into equal answers of `find`, `all_terms`, `rows`, `as_csv`, `as_lines` and `as_dict`;
  the number of objects, which bounds the walks of the model, may differ, and `treeF_bound` shows that it does not matter. Two witnesses for the conditions on names.
* **C96 Writing a document and reading it again does not change its dict.** `Spec/DictOutline`, `Lemmas/OutlineDict`, `Props/OutlineDict`. `Spec.outlineDict` writes the dict down from the outline alone (one
  entry per name, a list when the name comes more than once, own value under `@value`); the loop of `_convert_to_dict` is shown to give it (`docAsDict_shows`). Reordering the children as the writer does keeps the
  dict up to the order of entries (`outline_alike`). `Lemmas/Tidy`: no call except reading rows and declarations gives a term a value name or a type (assigning `term_value_name` as an attribute is outside the model).
  Partial: writable documents only; two witnesses show dicts that do change.
* **C97 Edits do on the outline what they say.** `Spec/OutlineEdit`, `Lemmas/OutlineEdit`, `Props/OutlineEdit`, `Props/EditMore`, `Props/EditSection`, `Props/EditDoc`. An edit names a place by numbers (section, term, child, child of a child, ...). `Edit.apply`
  is the edit of the outline, written down on lists; `Edit.run` looks up the object at the place and makes the call. `docAt_shows` and `shows_edit` carry an outline from one state to another that differs in one object,
  using that no object is below two places of an outline. `C97_edits` is the induction over any sequence of edits; `C97_new`, `C97_saved` and `C97_loaded` add the dict and the files. `Spec.Editable` is shown for new documents and for
  documents read from the rows of a writable outline (`read_editable`). Deleting a section needs that its terms are listed in the document, as `del doc[name]` takes them out of that list one by one. One witness: a section with a column called `Section`.
* **C98 What a search finds is told by the outline.** `Spec/OutlineFind`, `Lemmas/OutlineFind`, `Props/OutlineFind`, `Props/FindEdit`. `outlineFind` filters the items of an outline by name, value and section;
  `C98_nested`, `C98_root` and `C98_unqualified` match its result item by item with the objects that `find` returns, by walking the outline and the object graph together. The hypothesis `Spec.Indexed` (sections are called
  sections, lists agree, no derived terms) is shown for orderly histories (the invariant of C15), for plain rows, and for sequences of edits (`inv_edits`). `outlineFind_reordered` and the round trip of C50 give `C98_saved`. Left out: names `*.B` (`C98_star_witness`).
* **C99 A small edit makes a small difference in the file.** `Spec/Diff`, `Lemmas/Diff`, `Props/Diff`. `Spec.Replaces` says that two lists of rows differ at one place. The rows of an outline are known (`docRows_shows`, C50), so
  the claims are about `partRows` and `itemRows` of the outline before and after (`rows_value`, `rows_leaf`, `rows_newCell`, `rows_newRow`), carried up through the terms above (`rows_kid`, `rows_below`), to the section (`rows_section`) and to the document (`rows_part_at`).
  `csv` writes rows independently of each other, so the texts differ in the same place. Witness: a property that gets a child moves out of its cell.
  `Props/DiffLines` has the same for the Lines format: the lines of a section come row by row (`lineTexts`, C63), so one place in the rows is one place in the lines, and a cell is a line (`lines_cell`).
* **C100 The sections of a file do not depend on each other.** `Spec/Pieces`, `Lemmas/Pieces`, `Lemmas/PieceDoc`, `Props/Pieces`. What is read from a plain file is known row by row (`Spec.readAll`, C86). `shifted_rows`: reading on after other
  rows gives the same nodes with shifted references, if the file starts with a section row and is ordinary by itself. So the nodes of a file made of pieces are those of the pieces one after another (`readAll_pieces`), and the
  document falls into one part per piece (`holding_of`); exchanging pieces exchanges parts (`same_pieces`). `C100_order_partial` compares the two documents by `Spec.SectionIso`, a one-to-one map of the terms that keeps all but the order of
  sections. `C100_outline_partial` and `C100_search_partial` (`Lemmas/PieceOutline`, `Props/PieceOutline`) say the same of outlines (C101) and searches. `C100_parents_partial`: a term is in the section of its parent. **The code violates the full claim**: the comment at parser.py:459 says that parentage should not persist across sections, but only `last_parent_term` is
  reset there, not `last_term_map`. `C100_parent_witness`: a row `Table.Column` of one section becomes a child of the table of another. `C100_order_witness`: with the two sections exchanged the file is refused.
* **C101 A file is read as the outline it shows.** `Spec/TreeFile`, `Lemmas/TreeFile`, `Props/FileOutline`. `Spec.treeFile` is a condition on the rows alone: rows refer to terms of their own section, elided rows have no argument cells, no Header
  rows. `Spec.fileOutline` collects the nodes of the reference reader (C86) into trees. `neat_rows` shows by induction over the rows that each node refers to an earlier node of the same section with the name it says; `item_shows` builds the
  tree of a node, by induction on the number of nodes after it. So a document read from such a file satisfies `Spec.Shows`, and everything proved for outlines applies to files that people write, not only to files that were written by the
  code: searches (C98), dict (C96), edits (C97), text (C50) and differences (C99). Rows outside the condition: `C101_stray_witness`, `C101_elided_witness`; there the document has no outline at all. `C101_declared`, `C101_declared_search` (names below the root level that the declare files do not derive other names from), `C101_declared_root` (`Spec/DeclFind`, `Props/DeclFind`; names at root level: the search also finds the terms of the declare files that are asked for, because they stay in the list of the document, `C101_file_terms_witness`) and `C101_declared_saved` (`Lemmas/TreeDecl`, `Props/DeclOutline`): files that begin with `Declare` rows for quiet declare files (C50) are read as the outline of the other rows with the `Declare` terms in front; before the first section row there may be no argument cells, because the columns of the declare file are still in force there (`C101_head_witness`). `C101_declared_edits` and `C101_declared_edited`: such a file is edited (C97), and saved if the edits leave the `Declare` terms in front; the document of the `Declare` rows alone must be `Editable` (C97), and its declarations may not name the value of a term `section` (`Spec.NoSecTvn`).

## What the code does that its users may not expect

Each item has a witness theorem above or is a hypothesis of a theorem.

* Names: more than one `.` raises `ValueError`; a term with value `''` has value `None`, with value `'  '` the empty string.
* Rows: a row `Foo.Foo` makes a term its own child and every recursive reader then fails. A row `X.Root` becomes the parent of later
  root-level terms. The columns of a repeated `Section` row are ignored. An `Include` or `Declare` row without a value raises `AttributeError`.
  After a row `Parent.Child`, elided rows belong to `Child`.
* Includes: only a file including itself directly is detected; two files including each other recurse until Python gives up. A relative include
  inside an included file always fails, because the file's name is not a URL with a directory.
* Declarations: root-level terms of declare files are listed by the document, usually in a section that is not one of the document's
  (`C15_declare_witness`). Elided rows do not get declared properties. Value sets never
  take effect. Declarations loaded with `load_declarations` are not seen by the parser of the document.
* Sections: `get_or_new_section('Name')` and `new_section` replace an existing section; `del doc['Name']` leaves its terms in the document;
  removing a term of a deleted section puts the section back; moving a term leaves it in its old section; `del section[x]` raises.
* Adding a term of another document to a document without a section of that name makes the other document's section a section of both; terms made
  in it afterwards are listed by the wrong document.
* `get_or_new_term(name)` sets the value of an existing term to `False`; `get_or_new_term(name, value)` looks the term up by its value.
* Conversion: `section.as_dict` leaves the section changed when it raises; an empty document converts to a string.
* Writing: of several terminal children with the same name only the last is written; names ending in `root` are damaged; the Lines writer escapes
  neither `|` nor line ends; the file is written before the identifier and the name are set.
* Versions and names: `as_version` changes the document; without `Root.Dataset` the name is not slugged; the handler in `cleanse` is dead code.
* `name in term` raises `AttributeError` for nearly all names.
* Data packages: `Identifier` is looked up under a misspelt key; a table with one undeclared column makes the conversion fail.
* `clean_unused_schema_terms` raises `KeyError` without a Schema section, in spite of its guard.
* Item assignment `t['Name'] = ' v'` with a blank at the end of the value, or with another parent in the name, raises `AssertionError` after it
  has stored the value.
