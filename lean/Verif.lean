import Verif.Py.Str
import Verif.Py.Val
import Verif.Py.Dec
import Verif.Model.Convert
import Verif.Model.Row
import Verif.Model.Merge
import Verif.Model.Unflatten
import Verif.Model.SourceMap
import Verif.Model.Lib
import Verif.Model.Readers
import Verif.Model.Sheet
import Verif.Model.SchemaModel
import Verif.Model.Titles
import Verif.Model.Main
import Verif.Model.Flatten
import Verif.Model.Store
import Verif.Model.Output
import Verif.Model.Xml
import Verif.Model.Api
import Verif.Tests.Unflatten
import Verif.Tests.Schema
import Verif.Props.Convert
import Verif.Props.Config
import Verif.Props.Readers
import Verif.Props.ReadLines
import Verif.Props.Api
import Verif.Props.Store
import Verif.Props.Merge
import Verif.Props.Blank
import Verif.Proofs.Emit
import Verif.Proofs.EmitState
import Verif.Spec.Flatten
import Verif.Proofs.EmitPlain
import Verif.Proofs.FlatCells
import Verif.Proofs.FlatItems
import Verif.Proofs.EmitFilter
import Verif.Proofs.EmitRollup
import Verif.Proofs.EmitCount
import Verif.Proofs.SchemaInv
import Verif.Props.Flatten
import Verif.Props.FlattenLines
import Verif.Props.FlattenFilter
import Verif.Props.FlattenRollup
import Verif.Props.FlattenOrder
import Verif.Proofs.Preserve
import Verif.Props.FlattenPreserve
import Verif.Props.Output
import Verif.Spec.Xml
import Verif.Props.XmlSort
import Verif.Props.XmlLists
import Verif.Props.XmlRender
import Verif.Props.Additive
import Verif.Props.Twice
import Verif.Spec.Address
import Verif.Proofs.Address
import Verif.Proofs.Built
import Verif.Props.Positions
import Verif.Props.Forgiving
import Verif.Props.SourceMaps
import Verif.Spec.Schema
import Verif.Proofs.SchemaTrack
import Verif.Proofs.SchemaTrails
import Verif.Props.Template
import Verif.Props.Titles
import Verif.Spec.Order
import Verif.Proofs.At
import Verif.Proofs.AtRun
import Verif.Props.Order
import Verif.Spec.RoundTrip
import Verif.Proofs.Label
import Verif.Proofs.RowFlat
import Verif.Proofs.Doc
import Verif.Proofs.DocRow
import Verif.Proofs.LineRow
import Verif.Proofs.RowOf
import Verif.Proofs.RowDoc
import Verif.Proofs.RowRead
import Verif.Proofs.Between
import Verif.Proofs.TripBack
import Verif.Proofs.TripRun
import Verif.Proofs.TripDoc
import Verif.Props.RoundTrip
import Verif.Props.Recorded
import Verif.Model.Xsd
import Verif.Spec.Xsd
import Verif.Proofs.DecXml
import Verif.Props.XmlSchema
import Verif.Spec.Main
import Verif.Proofs.Main
import Verif.Props.Main
import Verif.Props.MainMaps
import Verif.Props.FileCells
import Verif.Props.Precedence
import Verif.Props.DefaultConfig
import Verif.Model.FlattenMain
import Verif.Spec.FlattenMain
import Verif.Props.RootList
import Verif.Spec.Columns
import Verif.Proofs.Columns
import Verif.Proofs.Arrays
import Verif.Props.Columns
import Verif.Spec.ApiTrip
import Verif.Proofs.ApiTrip
import Verif.Props.ApiTrip
import Verif.Model.Ods
import Verif.Spec.Ods
import Verif.Proofs.Ods
import Verif.Props.Ods
import Verif.Spec.Outputs
import Verif.Props.Outputs
import Verif.Props.JsonText
import Verif.Proofs.Unnamed
import Verif.Props.OrderAny
import Verif.Spec.Comments
import Verif.Props.Comments
import Verif.Model.Refs
import Verif.Props.Refs
import Verif.Model.CsvText
import Verif.Spec.CsvText
import Verif.Props.CsvText
import Verif.Props.CsvTrip
import Verif.Spec.Vertical
import Verif.Props.Vertical
import Verif.Spec.Renumber
import Verif.Proofs.Renumber
import Verif.Props.Renumber
import Verif.Spec.Tables
import Verif.Props.EndToEnd
import Verif.Props.TemplateEnd
import Verif.Spec.TitledTrip
import Verif.Proofs.EmitTitled
import Verif.Proofs.SchemaWalk
import Verif.Proofs.SchemaTitles
import Verif.Proofs.Described
import Verif.Proofs.TitledLines
import Verif.Proofs.TitledAddress
import Verif.Proofs.TitledBack
import Verif.Proofs.TitledKnows
import Verif.Props.TitledTrip
import Verif.Model.Letters
import Verif.Model.MapFile
import Verif.Proofs.Letters
import Verif.Proofs.Narrow
import Verif.Proofs.MapLocs
import Verif.Spec.MapFile
import Verif.Props.MapFile
import Verif.Spec.XmlTrip
import Verif.Proofs.XmlFlat
import Verif.Proofs.XmlWrap
import Verif.Proofs.XmlPlace
import Verif.Proofs.XmlRows
import Verif.Model.XmlIn
import Verif.Spec.XmlDoc
import Verif.Proofs.XmlDoc
import Verif.Props.XmlTrip
import Verif.Spec.Warnings
import Verif.Props.Warnings
import Verif.Props.WarnRollup
import Verif.Spec.OneCell
import Verif.Props.OneCell
import Verif.Proofs.PathOrder
import Verif.Props.TemplateTitles
import Verif.Model.Cli
import Verif.Spec.Cli
import Verif.Proofs.Cli
import Verif.Proofs.CliOnly
import Verif.Props.Cli
import Verif.Props.CliFormats
import Verif.Props.TitledApi
import Verif.Props.OptionChecks
import Verif.Spec.Rearrange
import Verif.Proofs.Rearrange
import Verif.Props.Rearrange
import Verif.Spec.Table
import Verif.Proofs.Table
import Verif.Props.Table
import Verif.Spec.Spread
import Verif.Proofs.Spread
import Verif.Proofs.SpreadRun
import Verif.Proofs.SpreadDec
import Verif.Props.Spread
import Verif.Spec.NumberText
import Verif.Proofs.NumberText
import Verif.Props.TextTypes
import Verif.Spec.Holds
import Verif.Spec.Forgiving
import Verif.Proofs.Holds
import Verif.Props.Holds
import Verif.Proofs.Describes
import Verif.Props.Describes
import Verif.Props.RollupWhen
import Verif.Spec.RollupTrip
import Verif.Proofs.SaidDoc
import Verif.Proofs.SaidLine
import Verif.Proofs.SaidTrip
import Verif.Props.RollupTrip
import Verif.Props.RollupFiles
import Verif.Spec.Edit
import Verif.Proofs.Edit
import Verif.Props.Edit
import Verif.Props.EditCell
import Verif.Spec.XmlHeadings
import Verif.Proofs.XmlHeadings
import Verif.Props.XmlHeadings
import Verif.Spec.SchemaWarns
import Verif.Proofs.SchemaWarns
import Verif.Props.SchemaWarns
import Verif.Props.XmlAttribs
import Verif.Spec.Files
import Verif.Proofs.Files
import Verif.Props.Files
import Verif.Spec.Layout
import Verif.Spec.RollupTitles
import Verif.Props.RollupTitles
import Verif.Spec.TitledFiles
import Verif.Props.TitledFiles
import Verif.Spec.FileEdit
import Verif.Props.FileEdit
import Verif.Spec.FileArrange
import Verif.Props.FileArrange
import Verif.Spec.TypedCell
import Verif.Props.TypedCell
import Verif.Spec.Geometry
import Verif.Props.Geometry
