{"id": "C01", "title": "Term names have one canonical form", "statement": "Normalising a term name is idempotent, ignores letter case and the blanks around the name and around its two parts, and turns an unqualified name X into root.X. A name is accepted exactly when it contains at most one '.', and is otherwise rejected with ValueError.", "quantifier": "every string used as a term name", "why_tests_cant": "names are arbitrary strings; tests sample a handful", "anchors": ["metatab/terms.py: Term.split_term, Term.split_term_lower, Term.normalize_term"]}
{"id": "C02", "title": "term_is is exactly wildcard matching of qualified names", "statement": "For a term named P.R and a pattern A.B with no blanks around its parts (an unqualified pattern B means root.B), term_is answers True exactly when A is '*' or equals P and B is '*' or equals R, ignoring case; a list of patterns matches exactly when one of its members does.", "quantifier": "every term and every pattern or list of patterns", "why_tests_cant": "the pattern and name spaces are infinite and the wildcard cases interact", "anchors": ["metatab/terms.py: Term.term_is, Term.join_lc"]}
{"id": "C03", "title": "slugify yields a stable slug", "statement": "slugify(s) contains only lower-case ASCII letters, digits, '_', '.', and '-', never two '-' in a row, and slugifying a slug changes nothing, whatever the Unicode decomposition of s is.", "quantifier": "every string and every NFKD decomposition that leaves ASCII text alone", "why_tests_cant": "all of Unicode is the domain", "anchors": ["metatab/util.py: slugify"]}
{"id": "C04", "title": "The Lines format reads back any row written with escaped pipes", "statement": "Writing a row as 'name: cell|cell|...' with every pipe inside a cell escaped as '\\|', and reading that line with the text row generator, gives back exactly the name and the cells, provided the name has no ':' and does not look like a comment or a ==== section line, no cell but the last ends in a backslash, and the outer blanks are already stripped.", "quantifier": "every name and every non-empty list of cells meeting the stated conditions", "why_tests_cant": "cells are arbitrary strings; escaping bugs hide in rare combinations of backslash and pipe", "anchors": ["metatab/rowgen.py: TextRowGenerator.__iter__"]}
{"id": "C05", "title": "Comment, blank and section-marker lines of the Lines format", "statement": "A line whose first non-blank character is '#' produces no row; a line starting with '====' produces the same row as the line with all its leading '=' replaced by 'Section:'; any other line produces exactly one row.", "quantifier": "every text", "why_tests_cant": "all texts are the domain", "anchors": ["metatab/rowgen.py: TextRowGenerator.__iter__"]}
{"id": "C06", "title": "Comment and blank rows never change a document", "statement": "Adding or removing rows that are empty, have an empty or blank first cell, or have a first cell starting with '#', anywhere in the input (also in included and declaration files), changes neither the resulting document nor the error raised.", "quantifier": "every list of rows, every set of positions, every document state", "why_tests_cant": "interaction with every other row kind and parser state", "anchors": ["metatab/parser.py: TermParser.generate_terms"]}
{"id": "C07", "title": "CSV output reads back as the same rows", "statement": "The text as_csv writes for any rows, read with the standard CSV reader, gives back the same rows cell for cell, including cells holding commas, quotes, carriage returns and line feeds, and single empty cells.", "quantifier": "every list of non-empty rows of string cells", "why_tests_cant": "cells are arbitrary strings", "anchors": ["metatab/doc.py: MetatabDoc.as_csv"]}
{"id": "C08", "title": "as_dict groups repeated children losslessly", "statement": "For undeclared children, as_dict maps each child name to that child's converted value when it occurs once and to the list of all converted values in document order when it occurs more often; keys are exactly the child names plus the value name when the term has a value.", "quantifier": "every term tree of every width and depth", "why_tests_cant": "unbounded trees, arbitrary interleavings of names", "anchors": ["metatab/terms.py: Term.as_dict, Term._convert_to_dict"]}
{"id": "C09", "title": "as_dict honours declared child property types", "statement": "A scalar child keeps the last value, a sequence child is always a list of all values in order, sconcat joins values with single spaces and bconcat with nothing.", "quantifier": "every list of children that share a type per name", "why_tests_cant": "unbounded lists of children", "anchors": ["metatab/terms.py: Term._convert_to_dict"]}
{"id": "C10", "title": "doc.as_dict shows every section's terms and leaves the document alone", "statement": "Converting a document to a dict combines the terms of all sections in section order and does not alter the document; section.as_dict restores the section as it found it.", "quantifier": "every document state, every outcome including exceptions", "why_tests_cant": "the exception paths need a crash at each point of the recursion", "anchors": ["metatab/doc.py: MetatabDoc.as_dict", "metatab/terms.py: SectionTerm.as_dict, RootSectionTerm.as_dict"]}
{"id": "C11", "title": "find returns exactly the matching terms, in order", "statement": "doc.find(name, value, section) returns exactly the terms whose qualified name matches (with wildcards), whose value equals the given value if one is given, and whose section name equals the given section ignoring case; root-level patterns search the root-level terms in document order and other patterns search every term in section order.", "quantifier": "every document, name, value and section filter", "why_tests_cant": "all documents and patterns", "anchors": ["metatab/doc.py: MetatabDoc.find, MetatabDoc.all_terms"]}
{"id": "C12", "title": "Searching for a super-term also returns its derived terms", "statement": "After the first load of a document, find on the qualified name of a type returns, once each, the terms of that type and of every type the document declares with an InheritsFrom that names it, and nothing else, whatever order the set of derived names is iterated in, provided no type is declared to inherit from itself. (Inheritances declared by a second load or by the decl argument of the constructor have no effect.)", "quantifier": "every document, every inheritance table, every set iteration order", "why_tests_cant": "set iteration order is randomised per process", "anchors": ["metatab/doc.py: MetatabDoc.find, MetatabDoc.load_terms"]}
{"id": "C13", "title": "find_first, get, get_value and find_first_value agree with find", "statement": "find_first is the first element of find or None; get and get_value return the default exactly when find is empty; a keyword filter keeps exactly the terms of the unfiltered result having all the given property values.", "quantifier": "every document and query", "why_tests_cant": "all documents and queries", "anchors": ["metatab/doc.py: MetatabDoc.find_first, get, get_value, find_first_value, find(**kwargs)"]}
{"id": "C14", "title": "A term is never listed twice", "statement": "After any history of document operations, parsing included, no term object occurs twice in the document's term list or in any section's term list, section names are unique, and no section object is in the term list.", "quantifier": "every sequence of operations, including ones that raise", "why_tests_cant": "histories are unbounded", "anchors": ["metatab/doc.py: MetatabDoc.add_term, add_section", "metatab/terms.py: SectionTerm.add_term"]}
{"id": "C15", "title": "Document and sections list the same root-level terms", "statement": "After any history of parsing and editing operations on a document, a term is in the document's list of root-level terms exactly when it is in the term list of its own section and that section belongs to the document.", "quantifier": "every sequence of operations", "why_tests_cant": "histories are unbounded", "anchors": ["metatab/doc.py: MetatabDoc.add_term, remove_term", "metatab/terms.py: SectionTerm.add_term, new_term, remove_term, clean"]}
{"id": "C16", "title": "Removing a term removes it everywhere", "statement": "After doc.remove_term(t) of a term whose section, if it is a root-level term, belongs to the document, t is in neither the document's term list, nor its section's term list, nor its parent's children; every other term keeps its place and its order, and nothing else changes.", "quantifier": "every document state and term", "why_tests_cant": "all states", "anchors": ["metatab/doc.py: MetatabDoc.remove_term", "metatab/terms.py: Term.remove_child"]}
{"id": "C17", "title": "A new term is immediately visible", "statement": "section.new_term(name, value) for a section that belongs to the document and a root-level name puts exactly one new root-level term with that name and the stripped value at the end of the section and of the document, and find then returns what it returned before followed by the new term.", "quantifier": "every document state, name and value", "why_tests_cant": "all states", "anchors": ["metatab/terms.py: SectionTerm.new_term"]}
{"id": "C18", "title": "Item assignment on a term is a map update", "statement": "After term[k] = v for a non-empty stripped string v, and k either the name of the term's value or a property name, term[k].value is v; every property with another name and every other term is unchanged; assigning the same again changes nothing further.", "quantifier": "every term, property name and value", "why_tests_cant": "all states", "anchors": ["metatab/terms.py: Term.__setitem__, Term.__getitem__, Term.get_or_new_child"]}
{"id": "C19", "title": "get_or_new_child finds or creates, once", "statement": "get_or_new_child(k, v) returns the first child named k when there is one and otherwise appends exactly one; calling it twice returns the same child and adds nothing.", "quantifier": "every term state, name and value", "why_tests_cant": "all states", "anchors": ["metatab/terms.py: Term.get_or_new_child"]}
{"id": "C20", "title": "Assigning None deletes the property", "statement": "term[k] = None removes the first child named k and nothing else, and does nothing when there is none.", "quantifier": "every document state", "why_tests_cant": "all states", "anchors": ["metatab/terms.py: Term.__setitem__, Term.remove_child", "metatab/doc.py: MetatabDoc.remove_term"]}
{"id": "C21", "title": "sort_by_term reorders without losing terms", "statement": "Sorting a section permutes its terms: without an order list they come out sorted by qualified name, equal names keeping their order; with an order list the terms matching earlier entries come first and the rest follow sorted.", "quantifier": "every section and every order list", "why_tests_cant": "unbounded lists", "anchors": ["metatab/terms.py: SectionTerm.sort_by_term"]}
{"id": "C22", "title": "sort_sections reorders without losing sections", "statement": "Sorting sections keeps exactly the same sections; the named ones come first in the given order ignoring case and duplicates, the rest keep their relative order.", "quantifier": "every document and every list of names", "why_tests_cant": "unbounded lists", "anchors": ["metatab/doc.py: MetatabDoc.sort_sections"]}
{"id": "C23", "title": "Section columns behave as a case-insensitive set", "statement": "add_arg makes the column present and is idempotent, remove_arg makes it absent, neither disturbs the other non-blank columns or their order; names are given without outer blanks.", "quantifier": "every column list and name", "why_tests_cant": "unbounded lists", "anchors": ["metatab/terms.py: SectionTerm.add_arg, SectionTerm.remove_arg"]}
{"id": "C24", "title": "get_or_new_section never replaces an existing section", "statement": "get_or_new_section(name) returns the existing section of that name, ignoring case, and creates one only when there is none.", "quantifier": "every document state and name", "why_tests_cant": "all states and spellings", "anchors": ["metatab/doc.py: MetatabDoc.get_or_new_section"]}
{"id": "C25", "title": "Deleting a section deletes its terms", "statement": "After del doc[name] the section is gone and so are its terms from the document's term list, whatever the letter case of name.", "quantifier": "every document state and name", "why_tests_cant": "all states and spellings", "anchors": ["metatab/doc.py: MetatabDoc.__delitem__"]}
{"id": "C26", "title": "Sections are looked up by name ignoring case and coalesce", "statement": "Adding a section whose name equals an existing one ignoring case leaves the document unchanged and yields the existing one; otherwise it is appended last; lookup and 'in' agree and ignore case.", "quantifier": "every document state and section", "why_tests_cant": "all states", "anchors": ["metatab/doc.py: MetatabDoc.add_section, get_section, __contains__"]}
{"id": "C27", "title": "Every parsed non-section row is attached to exactly one parent", "statement": "After parsing any rows without error, each term parsed from a row (other than section and header rows) or from an argument cell has a parent, is listed among that parent's children exactly once and among no other term's children.", "quantifier": "every list of rows", "why_tests_cant": "all inputs", "anchors": ["metatab/parser.py: TermParser.__iter__", "metatab/terms.py: Term.add_child"]}
{"id": "C28", "title": "Parsing never builds a cyclic document", "statement": "After parsing any rows and any further edits with new_child, get_or_new_child and item assignment, walking down children always ends unless it meets a term whose name equals its parent's name, like the term of a row 'Foo.Foo', which is its own child; an infinite walk stays at such a term forever.", "quantifier": "every list of rows and every edit history", "why_tests_cant": "all inputs", "anchors": ["metatab/parser.py: TermParser.__iter__", "metatab/terms.py: Term.descendents"]}
{"id": "C29", "title": "Elided rows attach to the latest row that named a term", "statement": "In a file of ordinary rows (comments, Section and Header rows, and term rows whose record name has no meaning of its own to the parser and whose parent was named before), a row '.X' becomes a child of the most recent preceding term of the same section that was named in a first cell without a leading dot, or a root-level term when there is none since the section row; it never fails for lack of a parent.", "quantifier": "every list of preceding rows", "why_tests_cant": "all prefixes", "anchors": ["metatab/parser.py: TermParser.__iter__"]}
{"id": "C30", "title": "Argument cells, elided rows and explicit rows are interchangeable", "statement": "In a file of ordinary rows without declarations, a term row with argument cells under columns with ordinary names, the term row followed by '.Prop' rows, and the term row followed by 'Term.Prop' rows build the same document; for the last form the next row must name a term or start a section, and later rows must not use a column's name as a parent.", "quantifier": "every document state, term, column list and values", "why_tests_cant": "all inputs", "anchors": ["metatab/parser.py: TermParser.generate_terms, TermParser.__iter__"]}
{"id": "C31", "title": "A repeated Section row reopens the section", "statement": "In a file of ordinary rows, a Section row whose name equals an already read section's name ignoring case changes no section and no term; the root-level terms that follow go to the existing section.", "quantifier": "every input", "why_tests_cant": "all inputs", "anchors": ["metatab/parser.py: TermParser.generate_terms", "metatab/doc.py: MetatabDoc.load_terms"]}
{"id": "C32", "title": "Include splices the included rows", "statement": "Parsing a document that includes a file of plain term rows gives the same document, up to the extra include term, as parsing it with those rows in place of the include row, provided that the first term rows of the included file and of what follows name their parent and that no header row has changed the columns of the current section; nested includes are read as a reference reader says.", "quantifier": "every including and included row list", "why_tests_cant": "all inputs", "anchors": ["metatab/parser.py: TermParser.generate_terms"]}
{"id": "C33", "title": "Include failures surface as IncludeError", "statement": "A self-include, a relative include from a source with no directory, a missing target, a declare row without a document or a failing nested include makes parsing raise IncludeError; files of ordinary and include rows fail in no other way unless their includes are nested deeper than the recursion limit.", "quantifier": "every input and file system", "why_tests_cant": "all file systems", "anchors": ["metatab/parser.py: TermParser.generate_terms, find_include_doc"]}
{"id": "C34", "title": "Parsing terminates on every set of files", "statement": "Whatever the files include or declare, parsing ends with a document or an error; unless it ends in RecursionError the result is the same for every larger recursion limit; and if no chain of includes and declares, other than a file naming itself, comes back to a file, then the limit plays no role beyond the length of the chains.", "quantifier": "every file system", "why_tests_cant": "cyclic include graphs of any length", "anchors": ["metatab/parser.py: TermParser.generate_terms"]}
{"id": "C35", "title": "Declared properties govern parsed terms", "statement": "A parsed term whose qualified name is declared gets the declared value name and child property type; an undeclared one gets the current section default and 'any'.", "quantifier": "every declaration table and row", "why_tests_cant": "all inputs", "anchors": ["metatab/parser.py: TermParser.__iter__"]}
{"id": "C36", "title": "Declarations do not leak into the document", "statement": "Loading a declaration file changes the declaration tables but adds no section and no term to the document beyond the Declare term itself.", "quantifier": "every declaration file", "why_tests_cant": "all inputs", "anchors": ["metatab/parser.py: TermParser.__iter__, manage_declare_terms"]}
{"id": "C37", "title": "Synonyms rename terms on input", "statement": "A row whose qualified name is a declared synonym, with or without the root prefix, is parsed as if written with the synonym's target name; only the recorded spelling and the Python class are those of the name in the row.", "quantifier": "every declaration table and row", "why_tests_cant": "all inputs", "anchors": ["metatab/parser.py: TermParser.synonyms, __iter__"]}
{"id": "C38", "title": "Derived terms inherit the declared children of their super-term", "statement": "Declaring a term with InheritsFrom declares, for every child of the super-term already listed in the same section, a child of the new term with the same properties; the operation terminates and leaves every other declaration alone.", "quantifier": "every declaration table", "why_tests_cant": "all tables; the code iterates over a list it is appending to", "anchors": ["metatab/parser.py: TermParser.inherited_children, add_declared_term"]}
{"id": "C39", "title": "Derived-term table is the inverse of the super-term table", "statement": "After loading, X is listed as derived from Y exactly when Y is recorded as the super-term of X.", "quantifier": "every inheritance table", "why_tests_cant": "all tables", "anchors": ["metatab/doc.py: MetatabDoc.load_terms"]}
{"id": "C40", "title": "Value sets keep the first display value", "statement": "Declaring values for a value set adds each to exactly the declared terms that use this value set, never overwrites an already recorded value and never changes anything else.", "quantifier": "every declaration table and value", "why_tests_cant": "all tables", "anchors": ["metatab/parser.py: TermParser.add_value_set_value"]}
{"id": "C41", "title": "Term class registration", "statement": "After registering a class for a name, looking that name up ignoring case gives the class; other names are unaffected; unregistering undoes it; an exact registration wins over one for the super-term, and the default is Term.", "quantifier": "every registry history", "why_tests_cant": "histories are unbounded", "anchors": ["metatab/parser.py: TermParser.register_term_class, unregister_term_class, get_term_class", "metatab/doc.py: MetatabDoc.get_term_class"]}
{"id": "C42", "title": "update_version builds the dotted version", "statement": "With any of Major, Minor or Patch present, update_version sets and returns major.minor.patch, plus .build when present, creating missing parts; otherwise it returns the version value unchanged; doing it twice changes nothing further.", "quantifier": "every version term", "why_tests_cant": "all documents", "anchors": ["metatab/doc.py: MetatabDoc.update_version, _has_semver"]}
{"id": "C43", "title": "Identity names are built from the naming terms in order", "statement": "The generated name is the '-'-joined list of the slugs of the non-blank values among origin, dataset, time, space, grain, variant and version, in this order; consequently it only contains slug characters.", "quantifier": "every document", "why_tests_cant": "all documents", "anchors": ["metatab/doc.py: MetatabDoc._generate_identity_name"]}
{"id": "C44", "title": "Version arithmetic", "statement": "as_version('+n') and as_version('-n') name the document with the integer version moved by n, and asking for a version name does not alter the document.", "quantifier": "every integer version and offset", "why_tests_cant": "all integers", "anchors": ["metatab/doc.py: MetatabDoc.as_version, _generate_identity_name"]}
{"id": "C45", "title": "update_name is stable", "statement": "After update_name has run without a change of version (mod_version False or None, force False), running it again leaves the document as it is and does not report that the name was set; this is for documents in which the naming terms are not declared as super-terms of other terms.", "quantifier": "every document", "why_tests_cant": "all documents", "anchors": ["metatab/doc.py: MetatabDoc.update_name"]}
{"id": "C46", "title": "ensure_identifier sets an identifier once", "statement": "After ensure_identifier the document has a non-empty Root.Identifier; an existing non-empty one is never replaced.", "quantifier": "every document", "why_tests_cant": "all documents", "anchors": ["metatab/doc.py: MetatabDoc.ensure_identifier"]}
{"id": "C47", "title": "Section rows emit every property once", "statement": "When a section writes a term row, the value and each property go to their column when the section has one and to exactly one extra row otherwise; nothing is emitted twice or dropped.", "quantifier": "every property map and column list", "why_tests_cant": "unbounded lists", "anchors": ["metatab/terms.py: SectionTerm._args, SectionTerm.rows"]}
{"id": "C48", "title": "Term rows cover the whole subtree", "statement": "Term.rows yields one entry for the term and for each non-terminal descendant, in depth-first order, and each terminal child appears in its parent's entry.", "quantifier": "every term tree", "why_tests_cant": "unbounded trees", "anchors": ["metatab/terms.py: Term.rows"]}
{"id": "C49", "title": "Descendants and all_terms enumerate in document order", "statement": "descendents yields every proper descendant exactly once, parents before children; all_terms yields each section followed by its terms and their descendants.", "quantifier": "every term tree", "why_tests_cant": "unbounded trees", "anchors": ["metatab/terms.py: Term.descendents", "metatab/doc.py: MetatabDoc.all_terms"]}
{"id": "C50", "title": "Writing and re-reading a document preserves it", "statement": "Parsing the rows a document writes gives a document with the same sections, columns, terms, values and children.", "quantifier": "every document", "why_tests_cant": "all documents", "anchors": ["metatab/doc.py: MetatabDoc.rows, load_terms", "metatab/parser.py: TermParser"]}
{"id": "C51", "title": "Property views agree", "statement": "props holds the last value per child name; arg_props holds the argument cells under the section's column names plus the value; all_props is arg_props overridden by props.", "quantifier": "every term", "why_tests_cant": "all terms", "anchors": ["metatab/terms.py: Term.props, arg_props, all_props"]}
{"id": "C52", "title": "Attribute access mirrors item access", "statement": "Reading an attribute that is not a Python attribute gives the value of the child of that name; the common properties url, name, description and schema read as None when absent; assigning an attribute named like a section column is item assignment.", "quantifier": "every term and name", "why_tests_cant": "all states", "anchors": ["metatab/terms.py: Term.__getattr__, Term.__setattr__"]}
{"id": "C53", "title": "Header rows rename the argument columns", "statement": "In a file of ordinary rows, after a Header row the argument cells of the following term rows in the section become children of the term named by the header's cells, by position, and the header row itself is not a term of the document.", "quantifier": "every header and following rows", "why_tests_cant": "all inputs", "anchors": ["metatab/parser.py: TermParser.__iter__"]}
{"id": "C54", "title": "write picks the format from the extension", "statement": "write produces CSV for .csv, Lines for .txt and raises FormatError otherwise without touching any file; a mismatching explicit format raises MetatabError without touching any file; the file then holds what the document serialises to.", "quantifier": "every document and path", "why_tests_cant": "all paths and crash points", "anchors": ["metatab/doc.py: MetatabDoc.write, write_csv, write_lines, _write"]}
{"id": "C55", "title": "Creating a metatab file never overwrites", "statement": "new_metatab_file leaves an existing file untouched and reports False; otherwise it creates exactly that file and reports True.", "quantifier": "every file system", "why_tests_cant": "all file systems", "anchors": ["metatab/cli.py: new_metatab_file"]}
{"id": "C56", "title": "Data package conversion lists each data file with its schema", "statement": "convert_to_datapackage yields one resource per Datafile term whose name or table has a schema, in document order, with one field per column and mapped types, and fails with ConversionError when there is no name.", "quantifier": "every document", "why_tests_cant": "all documents", "anchors": ["metatab/datapackage.py: convert_to_datapackage"]}
{"id": "C57", "title": "flatten lists every leaf with its path", "statement": "flatten yields one pair per scalar leaf in traversal order, whose key is the '.'-joined path of the leaf, when no key on the path is empty.", "quantifier": "every nested structure", "why_tests_cant": "unbounded structures", "anchors": ["metatab/util.py: flatten"]}
{"id": "C58", "title": "Metatab URLs always resolve to a metadata file", "statement": "For every path, constructing a metatab URL picks a known resource format; directories get metadata.csv appended; target file, target format and fragment are consistent with the resource format.", "quantifier": "every path", "why_tests_cant": "all paths", "anchors": ["metatab/appurl.py: MetatabUrl"]}
{"id": "C59", "title": "Ordinary files are read as the reference reader says", "statement": "A file of ordinary rows is parsed without error into exactly the document a small reference reader builds: the same sections, columns, terms, names, values, value names, parents and sections, every list in the order of the rows and cells, and nothing else reachable.", "quantifier": "every file of ordinary rows, every registered class table, every path and file system", "why_tests_cant": "unbounded inputs", "anchors": ["metatab/parser.py: TermParser.generate_terms, TermParser.__iter__", "metatab/doc.py: MetatabDoc.load_terms"]}
{"id": "C60", "title": "The membership test knows only the common names", "statement": "name in term is true for value, url, name, description and schema whether or not the term has such a child, and raises AttributeError for every other name, also for the names of existing children, unless the term has a child called properties.", "quantifier": "every term and name", "why_tests_cant": "all states", "anchors": ["metatab/terms.py: Term.__contains__, Term.__getattr__"]}
{"id": "C61", "title": "Cleaning the schema leaves exactly the columns in use", "statement": "For a document with a Schema section whose column names have no outer blanks and whose column terms have text properties, clean_unused_schema_terms returns; the columns of the section are then its former columns that some table column has a value for, in order, followed by one title-case column for each other name in use; exactly the empty properties of table columns are removed, and nothing else changes. Without a Schema section it raises KeyError and changes nothing.", "quantifier": "every reachable document", "why_tests_cant": "all documents and set orders", "anchors": ["metatab/doc.py: MetatabDoc.clean_unused_schema_terms", "metatab/terms.py: SectionTerm.add_arg, SectionTerm.remove_arg"]}
{"id": "C62", "title": "Cleaning a document settles its name", "statement": "cleanse never runs its handler for MetatabError and never raises one. When it returns on a document whose Root section can hold identifier and name, the document has an identifier and a second cleanse changes nothing; a document with a dataset and a name then has the name its terms give it, which is a slug.", "quantifier": "every document", "why_tests_cant": "all documents and all failure points", "anchors": ["metatab/doc.py: MetatabDoc.cleanse, update_name, ensure_identifier"]}
{"id": "C63", "title": "Documents survive the Lines format", "statement": "as_lines gives a text that, split by TextRowGenerator and parsed in a new document, gives the same sections with the same columns, terms, values and children, and writing that document as lines gives the same text again; CSV gives the same document.", "quantifier": "every document with ordinary names and with values without pipes and line breaks", "why_tests_cant": "unbounded documents", "anchors": ["metatab/doc.py: MetatabDoc.as_lines, lines", "metatab/terms.py: SectionTerm.lines", "metatab/rowgen.py: TextRowGenerator"]}
{"id": "C64", "title": "Lookups below a term or section stay inside it and honour defaults", "statement": "For a bare name, term[k], term.get and term.get_value agree on the first child of that name or on the value; without one, item access raises KeyError and the others give their default. term.find gives exactly the children of that name and value, in order; a qualified name must carry the term's own name. A lookup in a section gives only terms of a section of that name, the first in document order, and its default if there is none.", "quantifier": "every document, term, section, name, value and default", "why_tests_cant": "all states and names", "anchors": ["metatab/terms.py: Term.__getitem__, Term.get, Term.get_value, Term.find, Term.find_first, SectionTerm.__getitem__, SectionTerm.find_first"]}
{"id": "C65", "title": "Item assignment on a section sets that name", "statement": "After section[name] = value, section[name] has that value; a term of the section with that name gets it, or one new term is added at the end of the section if there is none; no other term changes.", "quantifier": "every reachable document, section, name and value", "why_tests_cant": "all states", "anchors": ["metatab/terms.py: SectionTerm.__setitem__", "metatab/doc.py: MetatabDoc.get_or_new_term"]}
{"id": "C66", "title": "Declared sections come with their columns", "statement": "A DeclareSection row records exactly its non-blank cells, stripped and in order, as the columns of the section of that name in any letter case, and changes no other declaration. A section made afterwards, by a Section row without columns or by new_section, has the declared columns.", "quantifier": "every state, name and list of cells", "why_tests_cant": "unbounded inputs", "anchors": ["metatab/parser.py: TermParser.add_declared_section", "metatab/doc.py: MetatabDoc.new_section, section_args", "metatab/terms.py: SectionTerm.__init__"]}
{"id": "C67", "title": "Declaration names resolve in the documented order", "statement": "find_declare_doc gives the path of an existing file whenever one of the candidates exists; the name itself comes first, then the files next to the document, then the declarations of the package, each also with the extension csv. If none exists, a URL is given back and any other name raises IncludeError.", "quantifier": "every file system, directory and name", "why_tests_cant": "all file systems", "anchors": ["metatab/parser.py: TermParser.find_declare_doc", "metatab/util.py: declaration_path"]}
{"id": "C68", "title": "New children and new terms are exactly the ones asked for", "statement": "term.new_child(name, value, **properties) adds one child at the end of the children, with that name below the term's name and that value, and it has exactly the given properties as children, in order; a qualified name with another parent raises an error and changes nothing. section.new_term adds one term at the end of section and document with exactly the given properties. Nothing else changes.", "quantifier": "every reachable document, term, section, name, value and list of properties", "why_tests_cant": "all states, any number of properties", "anchors": ["metatab/terms.py: Term.new_child, Term.new_children, SectionTerm.new_term"]}
{"id": "C69", "title": "YAML files are read as the terms they list", "statement": "Reading a YAML file gives, in the order of the file, one root-level term for each scalar and for each element of a list or mapping, in the section its name is declared for (Root otherwise); the value is the scalar or the entry under the declared value name, and the children are the other entries, in order. Nothing else is added.", "quantifier": "every YAML structure and every set of declarations", "why_tests_cant": "unbounded structures", "anchors": ["metatab/rowgen.py: YamlMetatabSource.yield_dict, YamlMetatabSource.__iter__"]}
{"id": "C70", "title": "Declarations accumulate and only declare files add to them", "statement": "After rows are read into a document, or declarations are loaded into it, the document's declared terms and sections are those found and, for every other name, those it had before; loading declarations leaves the super-terms alone. If reading fails, no table of the document has changed. Reading rows without a Declare row, and including files without one, adds nothing but the names every parser knows, even if there are DeclareTerm or DeclareSection rows.", "quantifier": "all documents, all rows, all file systems, every point at which reading may fail", "why_tests_cant": "The claim is about every name that is or is not declared after any sequence of files; tests load one declare file into a new document.", "anchors": ["metatab/doc.py:464-512", "metatab/doc.py:157-176", "metatab/parser.py:301-409", "metatab/parser.py:515-520"]}
{"id": "C71", "title": "Adding a term to a section puts it there with everything below it", "statement": "After section.add_term(term) succeeds, the section lists the term, every other section is as it was, the document lists the term if it is root-level, and every term below it has the section of the term and a parent that holds it; nothing else changes. A term that is not root-level is refused and nothing changes. Moving a term to another section takes it out of the old one.", "quantifier": "every document, section and term with any tree below it", "why_tests_cant": "The claim is about trees of any depth and about everything that must stay as it was.", "anchors": ["metatab/terms.py:744-762", "metatab/terms.py:206-214", "metatab/doc.py:178-206"]}
{"id": "C72", "title": "The metatab command prints or writes what was asked and nothing else", "statement": "A run of metatab on a file that can be read prints the document in the format asked for, or with -W puts it into the file with the same base name and the extension of the format, and prints nothing; no other file changes. Without -W and -C no file is touched, and -C leaves an existing file alone. A run that fails has touched no file and printed nothing. Rewriting a CSV file in place a second time changes nothing, and converting to lines and back gives the CSV file that rewriting gives.", "quantifier": "all command lines, all file contents, all local and remote files", "why_tests_cant": "The claim is about every other file and every document; tests run one command on one example file.", "anchors": ["metatab/cli.py:25-165", "metatab/cli.py:197-220"]}
{"id": "C73", "title": "get_table finds the table or names those there are", "statement": "get_table gives the first root-level Table term of that name; if there is none it ends the program with a message that lists the names of all tables in order, or says that there are none.", "quantifier": "every document and name", "why_tests_cant": "all documents", "anchors": ["metatab/cli.py:223-236"]}
{"id": "C74", "title": "A refused call leaves the document as it was", "statement": "When a call on a document, section or term raises, no term or section that existed has changed, and neither have the lists of terms, the table of sections, the declarations and the registered classes.", "quantifier": "every reachable document, every call and every argument that makes it raise", "why_tests_cant": "The claim is about every way a call can fail at every point in it, and about everything that must stay as it was.", "anchors": ["metatab/terms.py:173-204", "metatab/terms.py:254-281", "metatab/terms.py:744-802", "metatab/doc.py:178-327"]}
{"id": "C75", "title": "Reading rows only adds to a document", "statement": "Reading rows into a document, with every file they include and every declare file they name, or loading declarations, changes no term that was there, removes no term from the document or from a section, and neither removes nor replaces a section; an existing section keeps its columns, its terms and (unless its value is the one called section) its name, and may only get more terms and children, another header, another row name and another link. What a search for a root-level term found before, it finds afterwards, in the same order and first. All this holds as well when reading fails half-way.", "quantifier": "all documents, all rows, all file systems, every point at which reading may fail", "why_tests_cant": "The claim is about everything that must stay as it was, for any files read into any document; tests read one file into a new document.", "anchors": ["metatab/parser.py:301-525", "metatab/doc.py:464-512", "metatab/doc.py:157-176"]}
{"id": "C76", "title": "make_dir_structure makes its three directories and touches nothing else", "statement": "make_dir_structure(base) leaves base/_metapack/download, /package and /old as directories, with every directory above them, and changes no other path; a second call changes nothing. When a file is in the way of one of them it raises OSError, and then every file and directory that was there is unchanged and nothing has been added but directories that are needed.", "quantifier": "all file systems and all base directories", "why_tests_cant": "The claim is about every other path of the file system, and about every place a file can be in the way.", "anchors": ["metatab/util.py:78-99"]}
{"id": "C77", "title": "ensure_dir leaves a directory", "statement": "After ensure_dir(path) returns, the path is a directory and so is everything above it; nothing else has changed, and a second call does nothing. With a file above the path it raises OSError and nothing has changed.", "quantifier": "all file systems and all paths", "why_tests_cant": "The claim is about every other path of the file system.", "anchors": ["metatab/util.py:161-163"]}
{"id": "C78", "title": "walk_up lists each directory up to the root once", "statement": "From a directory, walk_up yields that directory and each directory above it, once each, nearest first, ending with the root; for each it lists the names of its directories and of its other entries, each once. From anything else it raises OSError before it yields anything.", "quantifier": "all file systems and all start paths", "why_tests_cant": "The claim is about directories of any depth; tests walk from one directory.", "anchors": ["metatab/util.py:126-158"]}
{"id": "C79", "title": "md5_file is the hash of the whole file", "statement": "For a file of any size, md5_file gives the digest of all its bytes; for anything else it gives None.", "quantifier": "all file systems, all paths, all file sizes", "why_tests_cant": "The loop over chunks is right for the sizes tested and may be wrong at a multiple of the chunk size.", "anchors": ["metatab/util.py:229-242"]}
{"id": "C80", "title": "The Lines reader reads the file or the text it is given", "statement": "TextRowGenerator gives the rows of the file a path or URL refers to, of the text a handle gives, and of a string the rows of that string. A path or URL whose file cannot be read, an unreadable handle and any other object raise SourceError.", "quantifier": "all references, all texts and all files", "why_tests_cant": "Each way of reading hides the errors of the one before; the claim is about every combination of reference and file.", "anchors": ["metatab/rowgen.py:122-204"]}
{"id": "C81", "title": "Indexing, membership and iteration of a document agree", "statement": "doc[name], name in doc and get_section with a default agree on every name in any letter case. doc[names] gives the sections of the names in order, and raises KeyError exactly if one is absent. list(doc) gives the sections that can be looked up, each once, in the order of the table, and each is found under its own name.", "quantifier": "every reachable document and all names", "why_tests_cant": "all documents and names", "anchors": ["metatab/doc.py:279-286", "metatab/doc.py:307-336"]}
{"id": "C82", "title": "copytree copies a directory into another", "statement": "After copytree(src, dst) everything below src is also below dst with the same content, except what ignore leaves out, and no other path has changed. A source that is no directory raises OSError and changes nothing.", "quantifier": "all file systems, sources and targets", "why_tests_cant": "The claim is about trees of any shape, and about every other path of the file system.", "anchors": ["metatab/util.py:166-173"]}
{"id": "C83", "title": "Documents of a process do not affect each other, except through the registered classes", "statement": "A call on one document, whether it returns or raises, leaves every other document of the process as it was, and however calls on several documents are interleaved, each document ends as if its own calls had been made on it alone. Only registering or unregistering a class reaches the other documents, and does to each of them what it does to the one.", "quantifier": "all processes with any number of documents, all interleavings of calls", "why_tests_cant": "State shared by accident (class attributes, default arguments, caches) shows only in certain interleavings; the number of interleavings is unbounded.", "anchors": ["metatab/parser.py:37-40", "metatab/parser.py:176-217", "metatab/doc.py:36-77", "metatab/doc.py:144-155", "metatab/doc.py:208-222"]}
{"id": "C84", "title": "A term of another document is taken over", "statement": "doc.add_term(t) with a root-level term of another document lists t in doc and in the section of doc that has the name of t's section; t and everything below it then belong to that section. The other document keeps its lists of terms and sections, and its sections stay its own.", "quantifier": "all pairs of documents, all terms", "why_tests_cant": "The documents share objects; what one call does to the other document shows only in later calls on that one.", "anchors": ["metatab/doc.py:178-206", "metatab/doc.py:243-254", "metatab/terms.py:744-758"]}
{"id": "C85", "title": "Classes registered by dotted name are imported at lookup", "statement": "A term registered with the dotted name p.q.C gets the object that importing p.q and descending from p by the attributes q, C gives. A name without a dot raises ValueError, and any error of the import or of the first missing attribute is raised by the lookup, except that a KeyError counts as no registration. When all names can be imported, documents and parsers see exactly the classes the names stand for.", "quantifier": "all modules and objects, all names, all registries", "why_tests_cant": "Depends on every possible module tree and on the exceptions that importing may raise.", "anchors": ["metatab/util.py:208-226", "metatab/doc.py:208-222", "metatab/parser.py:176-217"]}
{"id": "C86", "title": "Several files are read into one document", "statement": "Files read one after another into the same document give the document that has the terms of the first file, then those of the second, and so on. A section named again is continued with the columns it had. Cutting a file before section rows into pieces that can be read by themselves and reading the pieces one after another gives the document the whole file gives. A later file fails exactly as it would in a new document.", "quantifier": "all numbers of files, all files of ordinary rows and include rows", "why_tests_cant": "The parser of each file starts with fresh state while the document keeps its own; whether anything leaks between them shows only for particular sequences of files.", "anchors": ["metatab/doc.py:464-512", "metatab/parser.py:60-82", "metatab/parser.py:411-420"]}
{"id": "C87", "title": "A declaration that needs an undeclared section is refused", "statement": "Reading a DeclareTerm row that names a section not declared before, or that inherits from a term without naming a section, ends with a DeclarationError. When it does, the term itself has been entered into the table of declared terms and nothing else has changed. The same exception is raised for a child that would be inherited into an undeclared section.", "quantifier": "all rows, all tables of declared terms and sections", "why_tests_cant": "The refusals depend on the combination of cells in a row and on everything declared before; the error path builds its message from variables that a test of one path does not exercise.", "anchors": ["metatab/parser.py:547-613"]}
{"id": "C88", "title": "metatab -t lists the terms of the file", "statement": "metatab -t runs the parser of the opened document once more and prints the root section, then for every row of the file the section it opens or the terms it adds, with the section, the name and the value each has in the document, in the order of the file and with its file, row and column in front, and ends with exit code 0.", "quantifier": "all files of ordinary rows", "why_tests_cant": "The parser keeps attributes between two runs and the document it works on is no longer empty; what leaks into the second run depends on the whole file.", "anchors": ["metatab/cli.py:128-130", "metatab/parser.py:411-525", "metatab/terms.py:656-666"]}
{"id": "C89", "title": "Terms know where they were read", "statement": "Every term the parser builds has the name of its file, the number of its row, counted from 1 and with blank and comment rows, and its column: 1 for the term of a row, the index of the cell for the term of an argument cell. The row is one of the rows of the file the term was read from, is not blank and not a comment, and names the term or has the cell. No two terms of a file have the same place, and file_ref tells them apart.", "quantifier": "all files and included files, all documents, all outcomes", "why_tests_cant": "The attributes are only printed in error messages, where a wrong number is not noticed; included files, resumed sections and errors in the middle of a file give many paths.", "anchors": ["metatab/parser.py:301-409", "metatab/terms.py:82-86", "metatab/terms.py:152-164", "metatab/terms.py:672-700"]}
{"id": "C90", "title": "An IncludeError names the row at fault", "statement": "Parsing raises IncludeError only because of an include or declare row that cannot be followed: its directory is not known, its declaration is not known, it names the file it stands in, or its file cannot be read. The message begins with that reason and goes on with the names of the files being read, from the one with the row to the one that was loaded. The term attribute of the error is the term of that row, so that its file name and row number lead the user to it, and errors_as_dict lists them.", "quantifier": "all files, all nestings of included files, all documents", "why_tests_cant": "The attribute is taken from a loop variable that the nested generator overwrites, in two handlers per nesting level; which term it is depends on what the included files contain before the row at fault.", "anchors": ["metatab/parser.py:219-233", "metatab/parser.py:301-409", "metatab/parser.py:521-525", "metatab/exc.py:29-32"]}
{"id": "C91", "title": "A new file has the terms and sections of the template", "statement": "metatab -C with the shipped template, and new_metatab_file, write a file that has the Declare term of the template, the terms Title, Description, Identifier, Name, Dataset, Origin, Space, Time, Grain and Variant without values, Version 1, and the sections References, Resources, Documentation, Contacts and Schema with their columns and without terms, and change no other file. Reading the file gives a document with exactly these terms and sections, and writing that gives the file again.", "quantifier": "all file systems, all paths of csv files, all declaration documents that only declare", "why_tests_cant": "The result depends on the declarations that the template pulls in, which are not part of the package and may change.", "anchors": ["metatab/cli.py:78-84", "metatab/cli.py:197-218", "metatab/templates/metatab.csv:1-22"]}
{"id": "C92", "title": "Deleting an item of a section removes its terms of that name", "statement": "After del section[name] no term of the section has that name, in any letter case, and the other terms of the section are as before. A name that no term of the section has changes nothing and raises nothing.", "quantifier": "all documents, all sections and all names", "why_tests_cant": "Needs sections with none, one and several matching terms, and names in every form a term may have been given.", "anchors": ["metatab/terms.py:886-892", "metatab/terms.py:326-354"]}
{"id": "C93", "title": "Declarations given to the constructor act like a Declare row", "statement": "MetatabDoc(source, decl=names) gives the document that the source with a Declare row for these names at its start gives, but for where the declare rows stand: the same tables of declared terms and sections, the same terms with the same names and value names, the same answers of find.", "quantifier": "all declare files, all sources", "why_tests_cant": "The declarations are read by one parser and the source by another, and each starts with tables of its own; which declarations reach the second depends on whether the code asks the document or the parser.", "anchors": ["metatab/doc.py:34-90", "metatab/doc.py:92-130", "metatab/parser.py:67-82", "metatab/parser.py:547-613"]}
{"id": "C94", "title": "A document built by calls is the one asked for", "statement": "Making the sections of an outline with new_section, its root-level terms with new_term and everything below them with new_child, in the order of the outline, never raises and gives a document with exactly these sections, columns, terms, children and values, in this order and with the names in lower case. In a document that is there already, the same calls add to the end of a section and leave everything else as it was. If the names and values are ordinary, the document built is written as CSV or Lines text that is read as the same document, except for the order of the children of a term.", "quantifier": "all outlines of any width and depth, all documents, all registered term classes other than section classes", "why_tests_cant": "Every call goes through class lookup, declarations, ownership and two term lists; the errors that matter show only for certain shapes of trees and only after writing and reading.", "anchors": ["metatab/doc.py:260-270", "metatab/doc.py:178-206", "metatab/terms.py:37-104", "metatab/terms.py:173-191", "metatab/terms.py:764-772", "metatab/terms.py:611-655"]}
{"id": "C95", "title": "Taking back what was just made leaves the document as it was", "statement": "After new_term, remove_term of the new term, by the document or by the section, leaves every object, list and table of the document as it was before the two calls, whatever the name, value and properties are; so do remove_child after new_child, assigning None under a name after assigning a value to a property the term did not have, and deleting a section after new_section with a name the document had no section of. A document left so gives the same answers as before: to every search, as list of terms, as rows, CSV text, lines and dict.", "quantifier": "all documents, all sections of the document without a column Section, all terms not called Root, all names, values and properties", "why_tests_cant": "A term is entered in up to three lists and may bring children along; a test would have to compare the whole object graph before and after, for every kind of name.", "anchors": ["metatab/doc.py:178-241", "metatab/doc.py:260-270", "metatab/doc.py:317-327", "metatab/terms.py:173-197", "metatab/terms.py:254-317", "metatab/terms.py:764-772", "metatab/terms.py:833-842", "metatab/terms.py:851-876", "metatab/terms.py:724-742"]}
{"id": "C96", "title": "Writing a document and reading it again does not change its dict", "statement": "as_dict of a document whose terms have no declared value names and types is determined by its outline: an entry for each name among the root-level terms, a list if several terms have the name, and for a term with children the entries of its children with its own value under @value. This holds for every document made by calls that read neither rows nor declarations. The document read from the CSV or Lines text of such a document has the same dict, up to the order of entries, and the very same one if the children of every term already come in the order in which they are written.", "quantifier": "all documents with ordinary names and values, all outlines of any width and depth, with and without the values of terms with children", "why_tests_cant": "The loop over the children turns an entry into a list when the name comes again and drops or keeps the value of the term; whether writing keeps all of this depends on the shape of the whole tree.", "anchors": ["metatab/terms.py:539-607", "metatab/terms.py:968-990", "metatab/doc.py:775-812", "metatab/doc.py:837-861", "metatab/terms.py:611-655"]}
{"id": "C97", "title": "Edits do on the outline what they say", "statement": "Assigning a value to a term, new_child, get_or_new_child with a value, remove_child, new_term, remove_term, new_section, deleting a section, sort_sections, sort_by_term, and add_arg and remove_arg of a section without a header row succeed in a document and change its outline (sections, columns, terms, values, children, in order) at the place named and nowhere else: the value at the position is the new one, the new item is last among the children or terms or sections, the removed item or section and everything below it is gone, the first property of the name has the new value or is made at the end, the sections named come first in the order of the names and the others keep their order, the terms named come first and the others follow in alphabetical order, the column is added or removed. So any sequence of such edits gives the outline that the same edits of the outline give. For a new document as_dict is then the dict of that outline; a document written as CSV, read, edited, written and read again is the edited outline, except for the order of the children of a term.", "quantifier": "all documents without declared sections and with usable declared value names, all positions at any depth, all sequences of edits whose new names and values are ordinary", "why_tests_cant": "Tests try a few edits on a few documents and look at the place that was edited, not at everything else, and not at the composition of many edits.", "anchors": ["metatab/doc.py:178-241", "metatab/doc.py:260-270", "metatab/doc.py:288-306", "metatab/doc.py:317-328", "metatab/terms.py:254-281", "metatab/terms.py:173-197", "metatab/terms.py:204-213", "metatab/terms.py:357-379", "metatab/terms.py:764-772", "metatab/terms.py:833-842"]}
{"id": "C98", "title": "What a search finds is told by the outline", "statement": "find of a name A.B other than *.B, with or without a value and sections, returns the terms that stand for the items of the document's outline called B below an item called A, or at root level for Root.B and B, that have the value and are in the sections asked for: each once and no others, below root level in the order of the outline. This holds for every document read from ordinary rows, made by orderly calls, or made by any sequence of edits of a new document or of one that was written and read. Every search of the document read from the CSV text of an ordinary document finds the same as before, except for the order.", "quantifier": "all documents whose lists of terms agree and that declare no derived terms, all outlines of any width and depth, all names, values and section filters", "why_tests_cant": "The search uses the document's own list for root-level names and walks the sections for the others; whether the two and the outline agree depends on the whole history of reading and editing.", "anchors": ["metatab/doc.py:338-420", "metatab/doc.py:820-834", "metatab/terms.py:447-475", "metatab/terms.py:639-647"]}
{"id": "C99", "title": "A small edit makes a small difference in the file", "statement": "Between the CSV files of a document before and after an edit only this differs. Another value for a term, at any depth: one cell, which had the old value and has the new one. A new property of a root-level term or of a term with children: one row more, or, when the section has a column for it, one cell that was empty. get_or_new_child with a value: the one or the other, depending on whether there is a child of the name. A new term: its rows, after the other rows of its section. A removed child of a root-level term or of a term with other children: its cell is empty, or its rows are missing. A removed term or a deleted section: its rows are missing. A new section: rows at the end of the file. In the Lines format the same holds for lines: another value is one line with the same name and the other value, and a new property is always one line more, indented if the section has a column for it.", "quantifier": "all documents without declared sections whose outline can be written and read, before and after the edit; all positions, names and values", "why_tests_cant": "Tests compare a few files; which rows a change at some depth touches depends on columns, on whether children have children, and on everything before it in the file.", "anchors": ["metatab/doc.py:793-847", "metatab/terms.py:254-281", "metatab/terms.py:357-379"]}
{"id": "C100", "title": "The sections of a file do not depend on each other", "statement": "The terms read from the rows of a section do not depend on the rows of other sections: a term is in the section of its parent unless the parent is the root, and if a file is cut before section rows into pieces with different sections, the pieces can come in any order and give a document with the same sections and columns, each with the same terms in the same order, with the same names, values, parents and children.", "quantifier": "all ordinary files, all ways to cut them before section rows, all orders of the pieces", "why_tests_cant": "The parser keeps the last parent, the last term of each name and the current section in variables that live as long as the file; what one section leaves behind for the next shows only for certain pairs of sections.", "anchors": ["metatab/parser.py:411-525"]}
{"id": "C101", "title": "A file is read as the outline it shows", "statement": "An ordinary file in which rows Parent.Name refer to the root or to terms of their own section, rows with an elided parent have no argument cells, and which has no Header rows, is read as the outline of the file: the sections in the order in which they come first, with the columns given there, and below each root-level term the terms that refer to it, in the order of the rows, also where a section is left and resumed or a row refers to a term before the last one. Every search, the dict, every edit and the text written afterwards are those of this outline. A file that has the rows of its outline is saved as it was loaded; with another value for a term it is saved with one other cell. A file that begins with Declare rows, whose declare files add nothing but declarations and whose other rows have no argument cells before the first section row, is read as the outline of the other rows with the Declare terms in front.", "quantifier": "all such files, all searches, all sequences of edits", "why_tests_cant": "Where a term ends up depends on all rows before it; tests compare single files with expected trees.", "anchors": ["metatab/parser.py:411-525", "metatab/doc.py:460-500", "metatab/doc.py:338-420", "metatab/doc.py:775-861"]}
