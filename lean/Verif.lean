import Verif.Model.Ascii
import Verif.Model.Error
import Verif.Model.Cli
import Verif.Props.Lex
import Verif.Props.Parse
import Verif.Props.Split
import Verif.Props.Semantics
import Verif.Props.Draw
import Verif.Props.Hir
import Verif.Props.Combine
import Verif.Props.Sol
import Verif.Props.Check
import Verif.Props.FixCases
import Verif.Props.CliCases
import Verif.Props.Error
import Verif.Props.Lines
import Verif.Props.ReportCases
import Verif.Props.Layout
import Verif.Props.Messages
import Verif.Props.Order
import Verif.Props.Exact
import Verif.Props.LayoutCheck
import Verif.Props.Wording
import Verif.Props.Exact2
import Verif.Props.Exact3
import Verif.Props.Glyphs
import Verif.Props.Cases
import Verif.Props.Main
import Verif.Props.SolLex
import Verif.Props.SolFileCases
import Verif.Props.Crlf
import Verif.Props.Edit
import Verif.Props.Edit2
import Verif.Props.EditCases
import Verif.Props.EditRuns
import Verif.Props.EditRuns2
import Verif.Props.EditRunCases
import Verif.Props.Edit3
import Verif.Props.EditCases2
import Verif.Props.Edit4
import Verif.Props.EditCases3
import Verif.Props.ModesCases
import Verif.Props.AlikeTests
import Verif.Props.AlikeCases
import Verif.Props.Help
import Verif.Props.RewordCases
import Verif.Props.RetitleCases
import Verif.Props.Paths
import Verif.Props.DryRun
import Verif.Props.Recase
import Verif.Props.RecaseCases
import Verif.Props.DryRunCases
import Verif.Props.Declared
import Verif.Props.Keep
import Verif.Props.Session
import Verif.Props.SplitRuns
import Verif.Props.Crash
import Verif.Props.FixTwice
import Verif.Props.Chars
import Verif.Props.Local
import Verif.Props.Again
import Verif.Props.Pass
import Verif.Props.Success
import Verif.Props.Agree
import Verif.Props.SwapCases
import Verif.Props.Options
import Verif.Props.TreeOrder
import Verif.Props.Repeat
import Verif.Props.Version
import Verif.Props.Join
import Verif.Spec.Wrap
import Verif.Props.Wrap
import Verif.Props.WrapCases
import Verif.Spec.Replace
import Verif.Props.Replace
import Verif.Props.Part
import Verif.Props.PartCases
import Verif.Props.Cut
import Verif.Props.CutCases
import Verif.Props.Rework
import Verif.Props.ReworkCases
import Verif.Props.Move
import Verif.Props.MoveCases
import Verif.Props.Debug
import Verif.Props.Restore
import Verif.Props.RestoreCases
import Verif.Props.Result
import Verif.Props.ResultCases
import Verif.Props.Fill
import Verif.Props.FillCases
import Verif.Props.Tidy
import Verif.Props.TidyCases
import Verif.Props.ReadOff
import Verif.Props.ReadOffCases
import Verif.Props.Amid
import Verif.Props.AmidCases
import Verif.Props.Share
import Verif.Props.ShareCases
import Verif.Props.Rollback
import Verif.Props.RollbackCases
import Verif.Props.InTurn
import Verif.Props.InTurnCases
import Verif.Conformance.Unit
import Verif.Conformance.Integration
