#!/usr/bin/env python3
"""Writes /verif/properties.jsonl. Edit the list here, then run this file."""
import json, os
P = []
def p(title, statement, quantifier, why, anchors):
    P.append(dict(id="C%02d" % (len(P) + 1), title=title, statement=statement, quantifier=quantifier,
                  why_tests_cant=why, anchors=anchors))

T = "metatab/terms.py"; D = "metatab/doc.py"; R = "metatab/parser.py"; G = "metatab/rowgen.py"; U = "metatab/util.py"

p("Term names have one canonical form",
  "Normalising a term name is idempotent, ignores letter case and the blanks around the name and around its two parts, and turns an unqualified name X into root.X. A name is accepted exactly when it contains at most one '.', and is otherwise rejected with ValueError.",
  "every string used as a term name", "names are arbitrary strings; tests sample a handful",
  [T + ": Term.split_term, Term.split_term_lower, Term.normalize_term"])
p("term_is is exactly wildcard matching of qualified names",
  "For a term named P.R and a pattern A.B with no blanks around its parts (an unqualified pattern B means root.B), term_is answers True exactly when A is '*' or equals P and B is '*' or equals R, ignoring case; a list of patterns matches exactly when one of its members does.",
  "every term and every pattern or list of patterns", "the pattern and name spaces are infinite and the wildcard cases interact",
  [T + ": Term.term_is, Term.join_lc"])
p("slugify yields a stable slug",
  "slugify(s) contains only lower-case ASCII letters, digits, '_', '.', and '-', never two '-' in a row, and slugifying a slug changes nothing, whatever the Unicode decomposition of s is.",
  "every string and every NFKD decomposition that leaves ASCII text alone", "all of Unicode is the domain",
  [U + ": slugify"])
p("The Lines format reads back any row written with escaped pipes",
  "Writing a row as 'name: cell|cell|...' with every pipe inside a cell escaped as '\\|', and reading that line with the text row generator, gives back exactly the name and the cells, provided the name has no ':' and does not look like a comment or a ==== section line, no cell but the last ends in a backslash, and the outer blanks are already stripped.",
  "every name and every non-empty list of cells meeting the stated conditions", "cells are arbitrary strings; escaping bugs hide in rare combinations of backslash and pipe",
  [G + ": TextRowGenerator.__iter__"])
p("Comment, blank and section-marker lines of the Lines format",
  "A line whose first non-blank character is '#' produces no row; a line starting with '====' produces the same row as the line with all its leading '=' replaced by 'Section:'; any other line produces exactly one row.",
  "every text", "all texts are the domain", [G + ": TextRowGenerator.__iter__"])
p("Comment and blank rows never change a document",
  "Adding or removing rows that are empty, have an empty or blank first cell, or have a first cell starting with '#', anywhere in the input (also in included and declaration files), changes neither the resulting document nor the error raised.",
  "every list of rows, every set of positions, every document state", "interaction with every other row kind and parser state",
  [R + ": TermParser.generate_terms"])
p("CSV output reads back as the same rows",
  "The text as_csv writes for any rows, read with the standard CSV reader, gives back the same rows cell for cell, including cells holding commas, quotes, carriage returns and line feeds, and single empty cells.",
  "every list of non-empty rows of string cells", "cells are arbitrary strings",
  [D + ": MetatabDoc.as_csv"])
p("as_dict groups repeated children losslessly",
  "For undeclared children, as_dict maps each child name to that child's converted value when it occurs once and to the list of all converted values in document order when it occurs more often; keys are exactly the child names plus the value name when the term has a value.",
  "every term tree of every width and depth", "unbounded trees, arbitrary interleavings of names",
  [T + ": Term.as_dict, Term._convert_to_dict"])
p("as_dict honours declared child property types",
  "A scalar child keeps the last value, a sequence child is always a list of all values in order, sconcat joins values with single spaces and bconcat with nothing.",
  "every list of children that share a type per name", "unbounded lists of children",
  [T + ": Term._convert_to_dict"])
p("doc.as_dict shows every section's terms and leaves the document alone",
  "Converting a document to a dict combines the terms of all sections in section order and does not alter the document; section.as_dict restores the section as it found it.",
  "every document state, every outcome including exceptions", "the exception paths need a crash at each point of the recursion",
  [D + ": MetatabDoc.as_dict", T + ": SectionTerm.as_dict, RootSectionTerm.as_dict"])
p("find returns exactly the matching terms, in order",
  "doc.find(name, value, section) returns exactly the terms whose qualified name matches (with wildcards), whose value equals the given value if one is given, and whose section name equals the given section ignoring case; root-level patterns search the root-level terms in document order and other patterns search every term in section order.",
  "every document, name, value and section filter", "all documents and patterns",
  [D + ": MetatabDoc.find, MetatabDoc.all_terms"])
p("Searching for a super-term also returns its derived terms",
  "After the first load of a document, find on the qualified name of a type returns, once each, the terms of that type and of every type the document declares with an InheritsFrom that names it, and nothing else, whatever order the set of derived names is iterated in, provided no type is declared to inherit from itself. (Inheritances declared by a second load or by the decl argument of the constructor have no effect.)",
  "every document, every inheritance table, every set iteration order", "set iteration order is randomised per process",
  [D + ": MetatabDoc.find, MetatabDoc.load_terms"])
p("find_first, get, get_value and find_first_value agree with find",
  "find_first is the first element of find or None; get and get_value return the default exactly when find is empty; a keyword filter keeps exactly the terms of the unfiltered result having all the given property values.",
  "every document and query", "all documents and queries",
  [D + ": MetatabDoc.find_first, get, get_value, find_first_value, find(**kwargs)"])
p("A term is never listed twice",
  "After any history of document operations, parsing included, no term object occurs twice in the document's term list or in any section's term list, section names are unique, and no section object is in the term list.",
  "every sequence of operations, including ones that raise", "histories are unbounded",
  [D + ": MetatabDoc.add_term, add_section", T + ": SectionTerm.add_term"])
p("Document and sections list the same root-level terms",
  "After any history of parsing and editing operations on a document, a term is in the document's list of root-level terms exactly when it is in the term list of its own section and that section belongs to the document.",
  "every sequence of operations", "histories are unbounded",
  [D + ": MetatabDoc.add_term, remove_term", T + ": SectionTerm.add_term, new_term, remove_term, clean"])
p("Removing a term removes it everywhere",
  "After doc.remove_term(t) of a term whose section, if it is a root-level term, belongs to the document, t is in neither the document's term list, nor its section's term list, nor its parent's children; every other term keeps its place and its order, and nothing else changes.",
  "every document state and term", "all states",
  [D + ": MetatabDoc.remove_term", T + ": Term.remove_child"])
p("A new term is immediately visible",
  "section.new_term(name, value) for a section that belongs to the document and a root-level name puts exactly one new root-level term with that name and the stripped value at the end of the section and of the document, and find then returns what it returned before followed by the new term.",
  "every document state, name and value", "all states",
  [T + ": SectionTerm.new_term"])
p("Item assignment on a term is a map update",
  "After term[k] = v for a non-empty stripped string v, and k either the name of the term's value or a property name, term[k].value is v; every property with another name and every other term is unchanged; assigning the same again changes nothing further.",
  "every term, property name and value", "all states",
  [T + ": Term.__setitem__, Term.__getitem__, Term.get_or_new_child"])
p("get_or_new_child finds or creates, once",
  "get_or_new_child(k, v) returns the first child named k when there is one and otherwise appends exactly one; calling it twice returns the same child and adds nothing.",
  "every term state, name and value", "all states",
  [T + ": Term.get_or_new_child"])
p("Assigning None deletes the property",
  "term[k] = None removes the first child named k and nothing else, and does nothing when there is none.",
  "every document state", "all states", [T + ": Term.__setitem__, Term.remove_child", D + ": MetatabDoc.remove_term"])
p("sort_by_term reorders without losing terms",
  "Sorting a section permutes its terms: without an order list they come out sorted by qualified name, equal names keeping their order; with an order list the terms matching earlier entries come first and the rest follow sorted.",
  "every section and every order list", "unbounded lists", [T + ": SectionTerm.sort_by_term"])
p("sort_sections reorders without losing sections",
  "Sorting sections keeps exactly the same sections; the named ones come first in the given order ignoring case and duplicates, the rest keep their relative order.",
  "every document and every list of names", "unbounded lists", [D + ": MetatabDoc.sort_sections"])
p("Section columns behave as a case-insensitive set",
  "add_arg makes the column present and is idempotent, remove_arg makes it absent, neither disturbs the other non-blank columns or their order; names are given without outer blanks.",
  "every column list and name", "unbounded lists", [T + ": SectionTerm.add_arg, SectionTerm.remove_arg"])
p("get_or_new_section never replaces an existing section",
  "get_or_new_section(name) returns the existing section of that name, ignoring case, and creates one only when there is none.",
  "every document state and name", "all states and spellings", [D + ": MetatabDoc.get_or_new_section"])
p("Deleting a section deletes its terms",
  "After del doc[name] the section is gone and so are its terms from the document's term list, whatever the letter case of name.",
  "every document state and name", "all states and spellings", [D + ": MetatabDoc.__delitem__"])
p("Sections are looked up by name ignoring case and coalesce",
  "Adding a section whose name equals an existing one ignoring case leaves the document unchanged and yields the existing one; otherwise it is appended last; lookup and 'in' agree and ignore case.",
  "every document state and section", "all states", [D + ": MetatabDoc.add_section, get_section, __contains__"])
p("Every parsed non-section row is attached to exactly one parent",
  "After parsing any rows without error, each term parsed from a row (other than section and header rows) or from an argument cell has a parent, is listed among that parent's children exactly once and among no other term's children.",
  "every list of rows", "all inputs", [R + ": TermParser.__iter__", T + ": Term.add_child"])
p("Parsing never builds a cyclic document",
  "After parsing any rows and any further edits with new_child, get_or_new_child and item assignment, walking down children always ends unless it meets a term whose name equals its parent's name, like the term of a row 'Foo.Foo', which is its own child; an infinite walk stays at such a term forever.",
  "every list of rows and every edit history", "all inputs", [R + ": TermParser.__iter__", T + ": Term.descendents"])
p("Elided rows attach to the latest row that named a term",
  "In a file of ordinary rows (comments, Section and Header rows, and term rows whose record name has no meaning of its own to the parser and whose parent was named before), a row '.X' becomes a child of the most recent preceding term of the same section that was named in a first cell without a leading dot, or a root-level term when there is none since the section row; it never fails for lack of a parent.",
  "every list of preceding rows", "all prefixes", [R + ": TermParser.__iter__"])
p("Argument cells, elided rows and explicit rows are interchangeable",
  "In a file of ordinary rows without declarations, a term row with argument cells under columns with ordinary names, the term row followed by '.Prop' rows, and the term row followed by 'Term.Prop' rows build the same document; for the last form the next row must name a term or start a section, and later rows must not use a column's name as a parent.",
  "every document state, term, column list and values", "all inputs", [R + ": TermParser.generate_terms, TermParser.__iter__"])
p("A repeated Section row reopens the section",
  "In a file of ordinary rows, a Section row whose name equals an already read section's name ignoring case changes no section and no term; the root-level terms that follow go to the existing section.",
  "every input", "all inputs", [R + ": TermParser.generate_terms", D + ": MetatabDoc.load_terms"])
p("Include splices the included rows",
  "Parsing a document that includes a file of plain term rows gives the same document, up to the extra include term, as parsing it with those rows in place of the include row, provided that the first term rows of the included file and of what follows name their parent and that no header row has changed the columns of the current section; nested includes are read as a reference reader says.",
  "every including and included row list", "all inputs", [R + ": TermParser.generate_terms"])
p("Include failures surface as IncludeError",
  "A self-include, a relative include from a source with no directory, a missing target, a declare row without a document or a failing nested include makes parsing raise IncludeError; files of ordinary and include rows fail in no other way unless their includes are nested deeper than the recursion limit.",
  "every input and file system", "all file systems", [R + ": TermParser.generate_terms, find_include_doc"])
p("Parsing terminates on every set of files",
  "Whatever the files include or declare, parsing ends with a document or an error; unless it ends in RecursionError the result is the same for every larger recursion limit; and if no chain of includes and declares, other than a file naming itself, comes back to a file, then the limit plays no role beyond the length of the chains.",
  "every file system", "cyclic include graphs of any length", [R + ": TermParser.generate_terms"])
p("Declared properties govern parsed terms",
  "A parsed term whose qualified name is declared gets the declared value name and child property type; an undeclared one gets the current section default and 'any'.",
  "every declaration table and row", "all inputs", [R + ": TermParser.__iter__"])
p("Declarations do not leak into the document",
  "Loading a declaration file changes the declaration tables but adds no section and no term to the document beyond the Declare term itself.",
  "every declaration file", "all inputs", [R + ": TermParser.__iter__, manage_declare_terms"])
p("Synonyms rename terms on input",
  "A row whose qualified name is a declared synonym, with or without the root prefix, is parsed as if written with the synonym's target name; only the recorded spelling and the Python class are those of the name in the row.",
  "every declaration table and row", "all inputs", [R + ": TermParser.synonyms, __iter__"])
p("Derived terms inherit the declared children of their super-term",
  "Declaring a term with InheritsFrom declares, for every child of the super-term already listed in the same section, a child of the new term with the same properties; the operation terminates and leaves every other declaration alone.",
  "every declaration table", "all tables; the code iterates over a list it is appending to", [R + ": TermParser.inherited_children, add_declared_term"])
p("Derived-term table is the inverse of the super-term table",
  "After loading, X is listed as derived from Y exactly when Y is recorded as the super-term of X.",
  "every inheritance table", "all tables", [D + ": MetatabDoc.load_terms"])
p("Value sets keep the first display value",
  "Declaring values for a value set adds each to exactly the declared terms that use this value set, never overwrites an already recorded value and never changes anything else.",
  "every declaration table and value", "all tables", [R + ": TermParser.add_value_set_value"])
p("Term class registration",
  "After registering a class for a name, looking that name up ignoring case gives the class; other names are unaffected; unregistering undoes it; an exact registration wins over one for the super-term, and the default is Term.",
  "every registry history", "histories are unbounded", [R + ": TermParser.register_term_class, unregister_term_class, get_term_class", D + ": MetatabDoc.get_term_class"])
p("update_version builds the dotted version",
  "With any of Major, Minor or Patch present, update_version sets and returns major.minor.patch, plus .build when present, creating missing parts; otherwise it returns the version value unchanged; doing it twice changes nothing further.",
  "every version term", "all documents", [D + ": MetatabDoc.update_version, _has_semver"])
p("Identity names are built from the naming terms in order",
  "The generated name is the '-'-joined list of the slugs of the non-blank values among origin, dataset, time, space, grain, variant and version, in this order; consequently it only contains slug characters.",
  "every document", "all documents", [D + ": MetatabDoc._generate_identity_name"])
p("Version arithmetic",
  "as_version('+n') and as_version('-n') name the document with the integer version moved by n, and asking for a version name does not alter the document.",
  "every integer version and offset", "all integers", [D + ": MetatabDoc.as_version, _generate_identity_name"])
p("update_name is stable",
  "After update_name has run without a change of version (mod_version False or None, force False), running it again leaves the document as it is and does not report that the name was set; this is for documents in which the naming terms are not declared as super-terms of other terms.",
  "every document", "all documents", [D + ": MetatabDoc.update_name"])
p("ensure_identifier sets an identifier once",
  "After ensure_identifier the document has a non-empty Root.Identifier; an existing non-empty one is never replaced.",
  "every document", "all documents", [D + ": MetatabDoc.ensure_identifier"])
p("Section rows emit every property once",
  "When a section writes a term row, the value and each property go to their column when the section has one and to exactly one extra row otherwise; nothing is emitted twice or dropped.",
  "every property map and column list", "unbounded lists", [T + ": SectionTerm._args, SectionTerm.rows"])
p("Term rows cover the whole subtree",
  "Term.rows yields one entry for the term and for each non-terminal descendant, in depth-first order, and each terminal child appears in its parent's entry.",
  "every term tree", "unbounded trees", [T + ": Term.rows"])
p("Descendants and all_terms enumerate in document order",
  "descendents yields every proper descendant exactly once, parents before children; all_terms yields each section followed by its terms and their descendants.",
  "every term tree", "unbounded trees", [T + ": Term.descendents", D + ": MetatabDoc.all_terms"])
p("Writing and re-reading a document preserves it",
  "Parsing the rows a document writes gives a document with the same sections, columns, terms, values and children.",
  "every document", "all documents", [D + ": MetatabDoc.rows, load_terms", R + ": TermParser"])
p("Property views agree",
  "props holds the last value per child name; arg_props holds the argument cells under the section's column names plus the value; all_props is arg_props overridden by props.",
  "every term", "all terms", [T + ": Term.props, arg_props, all_props"])
p("Attribute access mirrors item access",
  "Reading an attribute that is not a Python attribute gives the value of the child of that name; the common properties url, name, description and schema read as None when absent; assigning an attribute named like a section column is item assignment.",
  "every term and name", "all states", [T + ": Term.__getattr__, Term.__setattr__"])
p("Header rows rename the argument columns",
  "In a file of ordinary rows, after a Header row the argument cells of the following term rows in the section become children of the term named by the header's cells, by position, and the header row itself is not a term of the document.",
  "every header and following rows", "all inputs", [R + ": TermParser.__iter__"])
p("write picks the format from the extension",
  "write produces CSV for .csv, Lines for .txt and raises FormatError otherwise without touching any file; a mismatching explicit format raises MetatabError without touching any file; the file then holds what the document serialises to.",
  "every document and path", "all paths and crash points", [D + ": MetatabDoc.write, write_csv, write_lines, _write"])
p("Creating a metatab file never overwrites",
  "new_metatab_file leaves an existing file untouched and reports False; otherwise it creates exactly that file and reports True.",
  "every file system", "all file systems", ["metatab/cli.py: new_metatab_file"])
p("Data package conversion lists each data file with its schema",
  "convert_to_datapackage yields one resource per Datafile term whose name or table has a schema, in document order, with one field per column and mapped types, and fails with ConversionError when there is no name.",
  "every document", "all documents", ["metatab/datapackage.py: convert_to_datapackage"])
p("flatten lists every leaf with its path",
  "flatten yields one pair per scalar leaf in traversal order, whose key is the '.'-joined path of the leaf, when no key on the path is empty.",
  "every nested structure", "unbounded structures", [U + ": flatten"])
p("Metatab URLs always resolve to a metadata file",
  "For every path, constructing a metatab URL picks a known resource format; directories get metadata.csv appended; target file, target format and fragment are consistent with the resource format.",
  "every path", "all paths", ["metatab/appurl.py: MetatabUrl"])

p("Ordinary files are read as the reference reader says",
  "A file of ordinary rows is parsed without error into exactly the document a small reference reader builds: the same sections, columns, terms, names, values, value names, parents and sections, every list in the order of the rows and cells, and nothing else reachable.",
  "every file of ordinary rows, every registered class table, every path and file system", "unbounded inputs", [R + ": TermParser.generate_terms, TermParser.__iter__", D + ": MetatabDoc.load_terms"])
p("The membership test knows only the common names",
  "name in term is true for value, url, name, description and schema whether or not the term has such a child, and raises AttributeError for every other name, also for the names of existing children, unless the term has a child called properties.",
  "every term and name", "all states", [T + ": Term.__contains__, Term.__getattr__"])
p("Cleaning the schema leaves exactly the columns in use",
  "For a document with a Schema section whose column names have no outer blanks and whose column terms have text properties, clean_unused_schema_terms returns; the columns of the section are then its former columns that some table column has a value for, in order, followed by one title-case column for each other name in use; exactly the empty properties of table columns are removed, and nothing else changes. Without a Schema section it raises KeyError and changes nothing.",
  "every reachable document", "all documents and set orders", [D + ": MetatabDoc.clean_unused_schema_terms", T + ": SectionTerm.add_arg, SectionTerm.remove_arg"])
p("Cleaning a document settles its name",
  "cleanse never runs its handler for MetatabError and never raises one. When it returns on a document whose Root section can hold identifier and name, the document has an identifier and a second cleanse changes nothing; a document with a dataset and a name then has the name its terms give it, which is a slug.",
  "every document", "all documents and all failure points", [D + ": MetatabDoc.cleanse, update_name, ensure_identifier"])
p("Documents survive the Lines format",
  "as_lines gives a text that, split by TextRowGenerator and parsed in a new document, gives the same sections with the same columns, terms, values and children, and writing that document as lines gives the same text again; CSV gives the same document.",
  "every document with ordinary names and with values without pipes and line breaks", "unbounded documents", [D + ": MetatabDoc.as_lines, lines", T + ": SectionTerm.lines", "metatab/rowgen.py: TextRowGenerator"])
p("Lookups below a term or section stay inside it and honour defaults",
  "For a bare name, term[k], term.get and term.get_value agree on the first child of that name or on the value; without one, item access raises KeyError and the others give their default. term.find gives exactly the children of that name and value, in order; a qualified name must carry the term's own name. A lookup in a section gives only terms of a section of that name, the first in document order, and its default if there is none.",
  "every document, term, section, name, value and default", "all states and names", [T + ": Term.__getitem__, Term.get, Term.get_value, Term.find, Term.find_first, SectionTerm.__getitem__, SectionTerm.find_first"])
p("Item assignment on a section sets that name",
  "After section[name] = value, section[name] has that value; a term of the section with that name gets it, or one new term is added at the end of the section if there is none; no other term changes.",
  "every reachable document, section, name and value", "all states", [T + ": SectionTerm.__setitem__", D + ": MetatabDoc.get_or_new_term"])
p("Declared sections come with their columns",
  "A DeclareSection row records exactly its non-blank cells, stripped and in order, as the columns of the section of that name in any letter case, and changes no other declaration. A section made afterwards, by a Section row without columns or by new_section, has the declared columns.",
  "every state, name and list of cells", "unbounded inputs", [R + ": TermParser.add_declared_section", D + ": MetatabDoc.new_section, section_args", T + ": SectionTerm.__init__"])
p("Declaration names resolve in the documented order",
  "find_declare_doc gives the path of an existing file whenever one of the candidates exists; the name itself comes first, then the files next to the document, then the declarations of the package, each also with the extension csv. If none exists, a URL is given back and any other name raises IncludeError.",
  "every file system, directory and name", "all file systems", [R + ": TermParser.find_declare_doc", U + ": declaration_path"])
p("New children and new terms are exactly the ones asked for",
  "term.new_child(name, value, **properties) adds one child at the end of the children, with that name below the term's name and that value, and it has exactly the given properties as children, in order; a qualified name with another parent raises an error and changes nothing. section.new_term adds one term at the end of section and document with exactly the given properties. Nothing else changes.",
  "every reachable document, term, section, name, value and list of properties", "all states, any number of properties", [T + ": Term.new_child, Term.new_children, SectionTerm.new_term"])
p("YAML files are read as the terms they list",
  "Reading a YAML file gives, in the order of the file, one root-level term for each scalar and for each element of a list or mapping, in the section its name is declared for (Root otherwise); the value is the scalar or the entry under the declared value name, and the children are the other entries, in order. Nothing else is added.",
  "every YAML structure and every set of declarations", "unbounded structures", ["metatab/rowgen.py: YamlMetatabSource.yield_dict, YamlMetatabSource.__iter__"])

p("Declarations accumulate and only declare files add to them",
  "After rows are read into a document, or declarations are loaded into it, the document's declared terms and sections are those found and, for every other name, those it had before; loading declarations leaves the super-terms alone. If reading fails, no table of the document has changed. Reading rows without a Declare row, and including files without one, adds nothing but the names every parser knows, even if there are DeclareTerm or DeclareSection rows.",
  "all documents, all rows, all file systems, every point at which reading may fail",
  "The claim is about every name that is or is not declared after any sequence of files; tests load one declare file into a new document.",
  [D+":464-512", D+":157-176", R+":301-409", R+":515-520"])
p("Adding a term to a section puts it there with everything below it",
  "After section.add_term(term) succeeds, the section lists the term, every other section is as it was, the document lists the term if it is root-level, and every term below it has the section of the term and a parent that holds it; nothing else changes. A term that is not root-level is refused and nothing changes. Moving a term to another section takes it out of the old one.",
  "every document, section and term with any tree below it",
  "The claim is about trees of any depth and about everything that must stay as it was.",
  [T+":744-762", T+":206-214", D+":178-206"])
p("The metatab command prints or writes what was asked and nothing else",
  "A run of metatab on a file that can be read prints the document in the format asked for, or with -W puts it into the file with the same base name and the extension of the format, and prints nothing; no other file changes. Without -W and -C no file is touched, and -C leaves an existing file alone. A run that fails has touched no file and printed nothing. Rewriting a CSV file in place a second time changes nothing, and converting to lines and back gives the CSV file that rewriting gives.",
  "all command lines, all file contents, all local and remote files",
  "The claim is about every other file and every document; tests run one command on one example file.",
  ["metatab/cli.py:25-165", "metatab/cli.py:197-220"])
p("get_table finds the table or names those there are",
  "get_table gives the first root-level Table term of that name; if there is none it ends the program with a message that lists the names of all tables in order, or says that there are none.",
  "every document and name", "all documents",
  ["metatab/cli.py:223-236"])
p("A refused call leaves the document as it was",
  "When a call on a document, section or term raises, no term or section that existed has changed, and neither have the lists of terms, the table of sections, the declarations and the registered classes.",
  "every reachable document, every call and every argument that makes it raise",
  "The claim is about every way a call can fail at every point in it, and about everything that must stay as it was.",
  [T+":173-204", T+":254-281", T+":744-802", D+":178-327"])
p("Reading rows only adds to a document",
  "Reading rows into a document, with every file they include and every declare file they name, or loading declarations, changes no term that was there, removes no term from the document or from a section, and neither removes nor replaces a section; an existing section keeps its columns, its terms and (unless its value is the one called section) its name, and may only get more terms and children, another header, another row name and another link. What a search for a root-level term found before, it finds afterwards, in the same order and first. All this holds as well when reading fails half-way.",
  "all documents, all rows, all file systems, every point at which reading may fail",
  "The claim is about everything that must stay as it was, for any files read into any document; tests read one file into a new document.",
  [R+":301-525", D+":464-512", D+":157-176"])
p("make_dir_structure makes its three directories and touches nothing else",
  "make_dir_structure(base) leaves base/_metapack/download, /package and /old as directories, with every directory above them, and changes no other path; a second call changes nothing. When a file is in the way of one of them it raises OSError, and then every file and directory that was there is unchanged and nothing has been added but directories that are needed.",
  "all file systems and all base directories",
  "The claim is about every other path of the file system, and about every place a file can be in the way.",
  [U+":78-99"])
p("ensure_dir leaves a directory",
  "After ensure_dir(path) returns, the path is a directory and so is everything above it; nothing else has changed, and a second call does nothing. With a file above the path it raises OSError and nothing has changed.",
  "all file systems and all paths",
  "The claim is about every other path of the file system.",
  [U+":161-163"])
p("walk_up lists each directory up to the root once",
  "From a directory, walk_up yields that directory and each directory above it, once each, nearest first, ending with the root; for each it lists the names of its directories and of its other entries, each once. From anything else it raises OSError before it yields anything.",
  "all file systems and all start paths",
  "The claim is about directories of any depth; tests walk from one directory.",
  [U+":126-158"])
p("md5_file is the hash of the whole file",
  "For a file of any size, md5_file gives the digest of all its bytes; for anything else it gives None.",
  "all file systems, all paths, all file sizes",
  "The loop over chunks is right for the sizes tested and may be wrong at a multiple of the chunk size.",
  [U+":229-242"])
p("The Lines reader reads the file or the text it is given",
  "TextRowGenerator gives the rows of the file a path or URL refers to, of the text a handle gives, and of a string the rows of that string. A path or URL whose file cannot be read, an unreadable handle and any other object raise SourceError.",
  "all references, all texts and all files",
  "Each way of reading hides the errors of the one before; the claim is about every combination of reference and file.",
  ["metatab/rowgen.py:122-204"])
p("Indexing, membership and iteration of a document agree",
  "doc[name], name in doc and get_section with a default agree on every name in any letter case. doc[names] gives the sections of the names in order, and raises KeyError exactly if one is absent. list(doc) gives the sections that can be looked up, each once, in the order of the table, and each is found under its own name.",
  "every reachable document and all names", "all documents and names",
  [D+":279-286", D+":307-336"])
p("copytree copies a directory into another",
  "After copytree(src, dst) everything below src is also below dst with the same content, except what ignore leaves out, and no other path has changed. A source that is no directory raises OSError and changes nothing.",
  "all file systems, sources and targets",
  "The claim is about trees of any shape, and about every other path of the file system.",
  [U+":166-173"])
p("Documents of a process do not affect each other, except through the registered classes",
  "A call on one document, whether it returns or raises, leaves every other document of the process as it was, and however calls on several documents are interleaved, each document ends as if its own calls had been made on it alone. Only registering or unregistering a class reaches the other documents, and does to each of them what it does to the one.",
  "all processes with any number of documents, all interleavings of calls",
  "State shared by accident (class attributes, default arguments, caches) shows only in certain interleavings; the number of interleavings is unbounded.",
  [R+":37-40", R+":176-217", D+":36-77", D+":144-155", D+":208-222"])
p("A term of another document is taken over",
  "doc.add_term(t) with a root-level term of another document lists t in doc and in the section of doc that has the name of t's section; t and everything below it then belong to that section. The other document keeps its lists of terms and sections, and its sections stay its own.",
  "all pairs of documents, all terms",
  "The documents share objects; what one call does to the other document shows only in later calls on that one.",
  [D+":178-206", D+":243-254", T+":744-758"])
p("Classes registered by dotted name are imported at lookup",
  "A term registered with the dotted name p.q.C gets the object that importing p.q and descending from p by the attributes q, C gives. A name without a dot raises ValueError, and any error of the import or of the first missing attribute is raised by the lookup, except that a KeyError counts as no registration. When all names can be imported, documents and parsers see exactly the classes the names stand for.",
  "all modules and objects, all names, all registries",
  "Depends on every possible module tree and on the exceptions that importing may raise.",
  [U+":208-226", D+":208-222", R+":176-217"])
p("Several files are read into one document",
  "Files read one after another into the same document give the document that has the terms of the first file, then those of the second, and so on. A section named again is continued with the columns it had. Cutting a file before section rows into pieces that can be read by themselves and reading the pieces one after another gives the document the whole file gives. A later file fails exactly as it would in a new document.",
  "all numbers of files, all files of ordinary rows and include rows",
  "The parser of each file starts with fresh state while the document keeps its own; whether anything leaks between them shows only for particular sequences of files.",
  [D+":464-512", R+":60-82", R+":411-420"])
p("A declaration that needs an undeclared section is refused",
  "Reading a DeclareTerm row that names a section not declared before, or that inherits from a term without naming a section, ends with a DeclarationError. When it does, the term itself has been entered into the table of declared terms and nothing else has changed. The same exception is raised for a child that would be inherited into an undeclared section.",
  "all rows, all tables of declared terms and sections",
  "The refusals depend on the combination of cells in a row and on everything declared before; the error path builds its message from variables that a test of one path does not exercise.",
  [R+":547-613"])
p("metatab -t lists the terms of the file",
  "metatab -t runs the parser of the opened document once more and prints the root section, then for every row of the file the section it opens or the terms it adds, with the section, the name and the value each has in the document, in the order of the file and with its file, row and column in front, and ends with exit code 0.",
  "all files of ordinary rows",
  "The parser keeps attributes between two runs and the document it works on is no longer empty; what leaks into the second run depends on the whole file.",
  ["metatab/cli.py:128-130", R+":411-525", T+":656-666"])
p("Terms know where they were read",
  "Every term the parser builds has the name of its file, the number of its row, counted from 1 and with blank and comment rows, and its column: 1 for the term of a row, the index of the cell for the term of an argument cell. The row is one of the rows of the file the term was read from, is not blank and not a comment, and names the term or has the cell. No two terms of a file have the same place, and file_ref tells them apart.",
  "all files and included files, all documents, all outcomes",
  "The attributes are only printed in error messages, where a wrong number is not noticed; included files, resumed sections and errors in the middle of a file give many paths.",
  [R+":301-409", T+":82-86", T+":152-164", T+":672-700"])
p("An IncludeError names the row at fault",
  "Parsing raises IncludeError only because of an include or declare row that cannot be followed: its directory is not known, its declaration is not known, it names the file it stands in, or its file cannot be read. The message begins with that reason and goes on with the names of the files being read, from the one with the row to the one that was loaded. The term attribute of the error is the term of that row, so that its file name and row number lead the user to it, and errors_as_dict lists them.",
  "all files, all nestings of included files, all documents",
  "The attribute is taken from a loop variable that the nested generator overwrites, in two handlers per nesting level; which term it is depends on what the included files contain before the row at fault.",
  [R+":219-233", R+":301-409", R+":521-525", "metatab/exc.py:29-32"])
p("A new file has the terms and sections of the template",
  "metatab -C with the shipped template, and new_metatab_file, write a file that has the Declare term of the template, the terms Title, Description, Identifier, Name, Dataset, Origin, Space, Time, Grain and Variant without values, Version 1, and the sections References, Resources, Documentation, Contacts and Schema with their columns and without terms, and change no other file. Reading the file gives a document with exactly these terms and sections, and writing that gives the file again.",
  "all file systems, all paths of csv files, all declaration documents that only declare",
  "The result depends on the declarations that the template pulls in, which are not part of the package and may change.",
  ["metatab/cli.py:78-84", "metatab/cli.py:197-218", "metatab/templates/metatab.csv:1-22"])
p("Deleting an item of a section removes its terms of that name",
  "After del section[name] no term of the section has that name, in any letter case, and the other terms of the section are as before. A name that no term of the section has changes nothing and raises nothing.",
  "all documents, all sections and all names",
  "Needs sections with none, one and several matching terms, and names in every form a term may have been given.",
  [T+":886-892", T+":326-354"])
p("Declarations given to the constructor act like a Declare row",
  "MetatabDoc(source, decl=names) gives the document that the source with a Declare row for these names at its start gives, but for where the declare rows stand: the same tables of declared terms and sections, the same terms with the same names and value names, the same answers of find.",
  "all declare files, all sources",
  "The declarations are read by one parser and the source by another, and each starts with tables of its own; which declarations reach the second depends on whether the code asks the document or the parser.",
  [D+":34-90", D+":92-130", R+":67-82", R+":547-613"])
p("A document built by calls is the one asked for",
  "Making the sections of an outline with new_section, its root-level terms with new_term and everything below them with new_child, in the order of the outline, never raises and gives a document with exactly these sections, columns, terms, children and values, in this order and with the names in lower case. In a document that is there already, the same calls add to the end of a section and leave everything else as it was. If the names and values are ordinary, the document built is written as CSV or Lines text that is read as the same document, except for the order of the children of a term.",
  "all outlines of any width and depth, all documents, all registered term classes other than section classes",
  "Every call goes through class lookup, declarations, ownership and two term lists; the errors that matter show only for certain shapes of trees and only after writing and reading.",
  [D+":260-270", D+":178-206", T+":37-104", T+":173-191", T+":764-772", T+":611-655"])
p("Taking back what was just made leaves the document as it was",
  "After new_term, remove_term of the new term, by the document or by the section, leaves every object, list and table of the document as it was before the two calls, whatever the name, value and properties are; so do remove_child after new_child, assigning None under a name after assigning a value to a property the term did not have, and deleting a section after new_section with a name the document had no section of. A document left so gives the same answers as before: to every search, as list of terms, as rows, CSV text, lines and dict.",
  "all documents, all sections of the document without a column Section, all terms not called Root, all names, values and properties",
  "A term is entered in up to three lists and may bring children along; a test would have to compare the whole object graph before and after, for every kind of name.",
  [D+":178-241", D+":260-270", D+":317-327", T+":173-197", T+":254-317", T+":764-772", T+":833-842", T+":851-876", T+":724-742"])
p("Writing a document and reading it again does not change its dict",
  "as_dict of a document whose terms have no declared value names and types is determined by its outline: an entry for each name among the root-level terms, a list if several terms have the name, and for a term with children the entries of its children with its own value under @value. This holds for every document made by calls that read neither rows nor declarations. The document read from the CSV or Lines text of such a document has the same dict, up to the order of entries, and the very same one if the children of every term already come in the order in which they are written.",
  "all documents with ordinary names and values, all outlines of any width and depth, with and without the values of terms with children",
  "The loop over the children turns an entry into a list when the name comes again and drops or keeps the value of the term; whether writing keeps all of this depends on the shape of the whole tree.",
  [T+":539-607", T+":968-990", D+":775-812", D+":837-861", T+":611-655"])
p("Edits do on the outline what they say",
  "Assigning a value to a term, new_child, get_or_new_child with a value, remove_child, new_term, remove_term, new_section, deleting a section, sort_sections, sort_by_term, and add_arg and remove_arg of a section without a header row succeed in a document and change its outline (sections, columns, terms, values, children, in order) at the place named and nowhere else: the value at the position is the new one, the new item is last among the children or terms or sections, the removed item or section and everything below it is gone, the first property of the name has the new value or is made at the end, the sections named come first in the order of the names and the others keep their order, the terms named come first and the others follow in alphabetical order, the column is added or removed. So any sequence of such edits gives the outline that the same edits of the outline give. For a new document as_dict is then the dict of that outline; a document written as CSV, read, edited, written and read again is the edited outline, except for the order of the children of a term.",
  "all documents without declared sections and with usable declared value names, all positions at any depth, all sequences of edits whose new names and values are ordinary",
  "Tests try a few edits on a few documents and look at the place that was edited, not at everything else, and not at the composition of many edits.",
  [D+":178-241", D+":260-270", D+":288-306", D+":317-328", T+":254-281", T+":173-197", T+":204-213", T+":357-379", T+":764-772", T+":833-842"])

p("What a search finds is told by the outline",
  "find of a name A.B other than *.B, with or without a value and sections, returns the terms that stand for the items of the document's outline called B below an item called A, or at root level for Root.B and B, that have the value and are in the sections asked for: each once and no others, below root level in the order of the outline. This holds for every document read from ordinary rows, made by orderly calls, or made by any sequence of edits of a new document or of one that was written and read. Every search of the document read from the CSV text of an ordinary document finds the same as before, except for the order.",
  "all documents whose lists of terms agree and that declare no derived terms, all outlines of any width and depth, all names, values and section filters",
  "The search uses the document's own list for root-level names and walks the sections for the others; whether the two and the outline agree depends on the whole history of reading and editing.",
  [D+":338-420", D+":820-834", T+":447-475", T+":639-647"])

p("A small edit makes a small difference in the file",
  "Between the CSV files of a document before and after an edit only this differs. Another value for a term, at any depth: one cell, which had the old value and has the new one. A new property of a root-level term or of a term with children: one row more, or, when the section has a column for it, one cell that was empty. get_or_new_child with a value: the one or the other, depending on whether there is a child of the name. A new term: its rows, after the other rows of its section. A removed child of a root-level term or of a term with other children: its cell is empty, or its rows are missing. A removed term or a deleted section: its rows are missing. A new section: rows at the end of the file. In the Lines format the same holds for lines: another value is one line with the same name and the other value, and a new property is always one line more, indented if the section has a column for it.",
  "all documents without declared sections whose outline can be written and read, before and after the edit; all positions, names and values",
  "Tests compare a few files; which rows a change at some depth touches depends on columns, on whether children have children, and on everything before it in the file.",
  [D+":793-847", T+":254-281", T+":357-379"])

p("The sections of a file do not depend on each other",
  "The terms read from the rows of a section do not depend on the rows of other sections: a term is in the section of its parent unless the parent is the root, and if a file is cut before section rows into pieces with different sections, the pieces can come in any order and give a document with the same sections and columns, each with the same terms in the same order, with the same names, values, parents and children.",
  "all ordinary files, all ways to cut them before section rows, all orders of the pieces",
  "The parser keeps the last parent, the last term of each name and the current section in variables that live as long as the file; what one section leaves behind for the next shows only for certain pairs of sections.",
  [R+":411-525"])

p("A file is read as the outline it shows",
  "An ordinary file in which rows Parent.Name refer to the root or to terms of their own section, rows with an elided parent have no argument cells, and which has no Header rows, is read as the outline of the file: the sections in the order in which they come first, with the columns given there, and below each root-level term the terms that refer to it, in the order of the rows, also where a section is left and resumed or a row refers to a term before the last one. Every search, the dict, every edit and the text written afterwards are those of this outline. A file that has the rows of its outline is saved as it was loaded; with another value for a term it is saved with one other cell. A file that begins with Declare rows, whose declare files add nothing but declarations and whose other rows have no argument cells before the first section row, is read as the outline of the other rows with the Declare terms in front.",
  "all such files, all searches, all sequences of edits",
  "Where a term ends up depends on all rows before it; tests compare single files with expected trees.",
  [R+":411-525", D+":460-500", D+":338-420", D+":775-861"])

out = os.path.join(os.path.dirname(os.path.abspath(__file__)), "..", "properties.jsonl")
with open(out, "w") as f:
    for r in P: f.write(json.dumps(r) + "\n")
print(len(P))
