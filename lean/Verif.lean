import Verif.Model.Basic
import Verif.Model.Claim
import Verif.Model.Exceptions
import Verif.Props.Claim
import Verif.Props.Exceptions
import Verif.Model.LazyProduct
import Verif.Props.LazyProduct
import Verif.Model.Comb
import Verif.Props.Comb
import Verif.Model.PathOrder
import Verif.Props.PathOrder
import Verif.Model.Op
import Verif.Props.Op
import Verif.Model.Predicate
import Verif.Props.Predicate
import Verif.Model.PredEq
import Verif.Model.Limit
import Verif.Props.LimitLemmas
import Verif.Props.Limit
import Verif.Model.Context
import Verif.Model.Assertion
import Verif.Model.Tree
import Verif.Model.Rule
import Verif.Model.Solve
import Verif.Model.Area
import Verif.Props.Tree
import Verif.Props.Run
import Verif.Model.Transcript
import Verif.Props.Transcript
import Verif.Props.Search
import Verif.Model.Loaded
import Verif.Props.Leaf
import Verif.Props.Query
import Verif.Props.TreeClaims
import Verif.Props.AreaClaims
import Verif.Props.Blocks
import Verif.Props.Waive
import Verif.Props.CountRule
import Verif.Props.Independent
import Verif.Props.SingleCount
import Verif.Props.Queue
import Verif.Props.Results
import Verif.Props.ResultsRun
import Verif.Props.Batch
import Verif.Props.Files
import Verif.Props.Duration
import Verif.Model.Yaml
import Verif.Model.LoadClause
import Verif.Model.Load
import Verif.Props.LoadBasic
import Verif.Props.LoadTree
import Verif.Props.LoadFuel
import Verif.Props.LoadLeaf
import Verif.Props.LoadPaths
import Verif.Props.LoadDistinct
import Verif.Props.LoadArea
import Verif.Props.LoadRun
import Verif.Props.Common
import Verif.Props.Meets
import Verif.Props.Provenance
import Verif.Props.MeetsArea
import Verif.Props.QueryLimit
import Verif.Props.Items
import Verif.Props.States
import Verif.Props.Outcome
import Verif.Props.Fresh
import Verif.Props.Satisfied
import Verif.Props.Tried
import Verif.Props.Found
import Verif.Props.FoundArea
import Verif.Props.Gpa
import Verif.Props.Waits
import Verif.Props.RunArgs
import Verif.Props.Reserved
import Verif.Props.Details
import Verif.Props.Estimate
import Verif.Props.LoadKeys
import Verif.Props.LoadLocal
import Verif.Props.MeansFilter
import Verif.Props.MeansAssertion
import Verif.Props.MeansRule
import Verif.Props.MeansCount
import Verif.Props.MeansReserved
import Verif.Props.MeansArea
import Verif.Props.MeansSensible
import Verif.Props.MeansFound
import Verif.Model.Print
import Verif.Model.Csv
import Verif.Props.Print
import Verif.Props.TextEach
import Verif.Props.PrintTotal
import Verif.Props.Alike
import Verif.Props.AlikeTree
import Verif.Props.AlikeSearch
import Verif.Props.AlikeApart
import Verif.Props.Reproducible
import Verif.Props.MeansLimit
import Verif.Model.Student
import Verif.Props.Entry
import Verif.Props.EntryOrder
import Verif.Props.GpaTable
import Verif.Props.TemplateLabel
import Verif.Props.LoadEnds
import Verif.Props.StudentSays
import Verif.Props.TranscriptSays
import Verif.Props.TwoFiles
import Verif.Props.SafeLeaf
import Verif.Props.SafeRule
import Verif.Props.SafeTree
import Verif.Props.NeverFails
import Verif.Props.LabelPattern
import Verif.Props.TwoFilesFound
import Verif.Props.MeansFoundLimits
import Verif.Props.FoundQuery
import Verif.Props.MeansKept
import Verif.Props.MeansFoundQueries
import Verif.Props.MulticountText
import Verif.Props.GradesOfFile
import Verif.Props.Csv
import Verif.Model.Json
import Verif.Props.Json
import Verif.Props.JsonPaths
import Verif.Props.Stored
import Verif.Model.Discover
import Verif.Props.Discover
import Verif.Props.DiscoverTests
import Verif.Props.DiscoverCourses
import Verif.Model.Front
import Verif.Props.Missing
import Verif.Props.Front
import Verif.Props.BatchRun
import Verif.Props.Index
import Verif.Model.Validate
import Verif.Props.ValidateClause
import Verif.Props.ValidateRule
import Verif.Props.Validate
import Verif.Model.Testbed
import Verif.Props.Testbed
import Verif.Model.AreaCache
import Verif.Props.AreaCache
import Verif.Model.ServerCli
import Verif.Props.ServerCli
import Verif.Model.Dotenv
import Verif.Props.Dotenv
import Verif.Model.Fetch
import Verif.Props.Fetch
import Verif.Model.WhatIf
import Verif.Props.WhatIf
import Verif.Model.Report
import Verif.Props.Report
import Verif.Props.ReportSummary
import Verif.Props.ReportRow
import Verif.Model.ReportBatch
import Verif.Props.ReportBatch
import Verif.Props.ReportShown
import Verif.Model.Autop
import Verif.Props.Autop
import Verif.Props.ReportNumbers
import Verif.Model.Render
import Verif.Props.Render
import Verif.Model.Excel
import Verif.Props.Excel
import Verif.Model.Expand
import Verif.Props.Expand
