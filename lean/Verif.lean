import Verif.Props.Names
import Verif.Props.Slug
import Verif.Props.Lines
import Verif.Props.Csv
import Verif.Props.Flatten
import Verif.Props.Url
import Verif.Props.Sort
import Verif.Props.Columns
import Verif.Props.Sections
import Verif.Props.Registry
import Verif.Props.Find
import Verif.Model.Parser
import Verif.Model.Place
import Verif.Props.Histories
import Verif.Props.Noise
import Verif.Props.Elided
import Verif.Props.Reading
import Verif.Lemmas.PlainRows
import Verif.Lemmas.PlainFile
import Verif.Lemmas.PlainDoc
import Verif.Spec.Reader
import Verif.Spec.SameDoc
import Verif.Lemmas.Reader
import Verif.Lemmas.SameDoc
import Verif.Props.Remove
import Verif.Props.NewTerm
import Verif.Props.Items
import Verif.Props.Include
import Verif.Props.IncludeErrors
import Verif.Props.Inherited
import Verif.Props.FindAlways
import Verif.Props.Declare
import Verif.Props.Declared
import Verif.Props.ValueSet
import Verif.Props.Synonym
import Verif.Model.Version
import Verif.Lemmas.SameFind
import Verif.Props.Version
import Verif.Lemmas.StepsVersion
import Verif.Props.Identifier
import Verif.Props.DocName
import Verif.Props.AsVersion
import Verif.Props.UpdateName
import Verif.Props.Enumerate
import Verif.Props.Rows
import Verif.Props.RoundTrip
import Verif.Props.DocDict
import Verif.Model.Views
import Verif.Model.Clean
import Verif.Lemmas.StepsClean
import Verif.Props.Views
import Verif.Props.Attr
import Verif.Model.Write
import Verif.Props.Writing
import Verif.Spec.Package
import Verif.Model.DataPackage
import Verif.Props.DataPackage
import Verif.Spec.Agree
import Verif.Lemmas.Agree
import Verif.Lemmas.AgreeOps
import Verif.Lemmas.AgreeDoc
import Verif.Lemmas.AgreeVersion
import Verif.Lemmas.AgreeParse
import Verif.Props.Agree
import Verif.Spec.Schema
import Verif.Props.Schema
import Verif.Lemmas.NoMeta
import Verif.Props.Cleanse
import Verif.Spec.LineFile
import Verif.Lemmas.LineFile
import Verif.Lemmas.LineDoc
import Verif.Props.LineFile
import Verif.Props.LineFileDecl
import Verif.Spec.Lookup
import Verif.Props.Lookup
import Verif.Props.DeclSection
import Verif.Model.FindDecl
import Verif.Spec.FindDecl
import Verif.Props.FindDecl
import Verif.Props.NewChild
import Verif.Model.Yaml
import Verif.Spec.Yaml
import Verif.Props.Yaml
import Verif.Lemmas.Undecl
import Verif.Props.DeclTables
import Verif.Props.Move
import Verif.Model.Cli
import Verif.Props.FindOrderly
import Verif.Props.Cli
import Verif.Props.Atomic
import Verif.Props.RoundTripDecl
import Verif.Props.Additive
import Verif.Props.Dirs
import Verif.Props.CopyTree
import Verif.Props.TextSource
import Verif.Props.DocItem
import Verif.Props.AgreeDecl
import Verif.Props.World
import Verif.Props.Foreign
import Verif.Props.Import
import Verif.Props.DeclCalls
import Verif.Props.Again
import Verif.Props.DeclRefuse
import Verif.Props.Stream
import Verif.Props.Where
import Verif.Props.Report
import Verif.Props.Template
import Verif.Props.DelItem
import Verif.Props.AlwaysFound
import Verif.Model.Construct
import Verif.Props.Construct
import Verif.Spec.Build
import Verif.Props.Build
import Verif.Lemmas.Answers
import Verif.Props.Undo
import Verif.Spec.Pieces
import Verif.Lemmas.Pieces
import Verif.Lemmas.PieceDoc
import Verif.Props.Pieces
import Verif.Spec.TreeFile
import Verif.Lemmas.TreeFile
import Verif.Props.FileOutline
import Verif.Props.DeclOutline
import Verif.Props.DeclFind
import Verif.Lemmas.PieceOutline
import Verif.Props.PieceOutline
import Verif.Spec.DictOutline
import Verif.Lemmas.OutlineDict
import Verif.Lemmas.Tidy
import Verif.Props.OutlineDict
import Verif.Spec.OutlineEdit
import Verif.Lemmas.OutlineEdit
import Verif.Props.OutlineEdit
import Verif.Props.EditMore
import Verif.Props.EditSection
import Verif.Props.EditDoc
import Verif.Spec.OutlineFind
import Verif.Lemmas.OutlineFind
import Verif.Props.OutlineFind
import Verif.Props.FindEdit
import Verif.Spec.Diff
import Verif.Lemmas.Diff
import Verif.Props.Diff
import Verif.Props.DiffLines
