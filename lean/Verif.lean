import Verif.Model.Go
import Verif.Model.Utf8
import Verif.Model.Helpers
import Verif.Model.RuneStream
import Verif.Spec.CodePoints
import Verif.Spec.Helpers
import Verif.Props.Helpers
import Verif.Props.RuneStream
import Verif.Model.Engine
import Verif.Model.Values
import Verif.Model.GrammarParse
import Verif.Model.Samples
import Verif.Spec.Grammar
import Verif.Proofs.Fuel
import Verif.Proofs.Invariant3
import Verif.Proofs.GrammarParse
import Verif.Props.Engine
import Verif.Spec.Checked
import Verif.Spec.Operators
import Verif.Props.Parse
import Verif.Props.Operators
import Verif.Spec.Merge
import Verif.Props.Merge
import Verif.Props.ParserMerge
import Verif.Model.Colors
import Verif.Spec.Colors
import Verif.Proofs.Colors
import Verif.Props.Colors
import Verif.Model.Print
import Verif.Spec.Print
import Verif.Proofs.Print
import Verif.Proofs.Print2
import Verif.Props.Print
import Verif.Props.LeftRec
import Verif.Spec.Peg
import Verif.Proofs.Peg
import Verif.Proofs.Peg2
import Verif.Spec.Means
import Verif.Proofs.Means
import Verif.Proofs.SkipCache
import Verif.Proofs.Lookup
import Verif.Proofs.Check
import Verif.Props.Peg
import Verif.Spec.LeftRec
import Verif.Proofs.LeftRec
import Verif.Proofs.SimRules
import Verif.Proofs.LeftRec2
import Verif.Proofs.LeftRec3
import Verif.Proofs.LeftRec4
import Verif.Spec.LeftAssoc
import Verif.Proofs.LeftAssoc
import Verif.Proofs.SkipCache2
import Verif.Props.LeftRec2
import Verif.Spec.Tracing
import Verif.Proofs.Tracing
import Verif.Props.Tracing
import Verif.Model.TokenStream
import Verif.Spec.TokenStream
import Verif.Proofs.TokenStream
import Verif.Props.TokenStream
import Verif.Model.Native
import Verif.Spec.Native
import Verif.Props.Native
import Verif.Spec.NoLeftRec
import Verif.Proofs.Total
import Verif.Props.Total
import Verif.Model.TraceOptions
import Verif.Spec.TraceOptions
import Verif.Proofs.TraceOptions
import Verif.Props.TraceOptions
import Verif.Model.Heap
import Verif.Spec.Heap
import Verif.Spec.Errors
import Verif.Proofs.ValueSim
import Verif.Proofs.Heap
import Verif.Proofs.Errors
import Verif.Props.Heap
import Verif.Props.Errors
import Verif.Model.Build
import Verif.Spec.Build
import Verif.Proofs.Build
import Verif.Proofs.Build2
import Verif.Props.Build
import Verif.Model.Joeson
import Verif.Spec.RuleText
import Verif.Proofs.JoesonG
import Verif.Proofs.RuleText
import Verif.Proofs.RuleText2
import Verif.Proofs.RuleText3
import Verif.Proofs.RuleText4
import Verif.Proofs.RuleText5
import Verif.Proofs.RuleText6
import Verif.Props.RuleText
import Verif.Spec.Lang
import Verif.Proofs.Lang
import Verif.Proofs.Lang2
import Verif.Proofs.Lang3
import Verif.Proofs.Lang4
import Verif.Proofs.Lang5
import Verif.Proofs.Lang6
import Verif.Props.Lang
import Verif.Model.Intention
import Verif.Proofs.RuleTextB
import Verif.Proofs.LeftRecB
import Verif.Proofs.Inline
import Verif.Proofs.Intention
import Verif.Proofs.Intention2
import Verif.Props.Bootstrap
import Verif.Spec.Values
import Verif.Proofs.Values
import Verif.Proofs.Values2
import Verif.Proofs.Values3
import Verif.Proofs.Values4
import Verif.Proofs.RuleTextCheck
import Verif.Props.Values
import Verif.Props.Values2
import Verif.Spec.LeftText
import Verif.Proofs.LeftMeans
import Verif.Proofs.LeftText
import Verif.Proofs.LeftText2
import Verif.Proofs.Mentions
import Verif.Proofs.LeftRank7
import Verif.Proofs.Forest2
import Verif.Proofs.Forest
import Verif.Props.LeftText
import Verif.Props.Lines
import Verif.Model.Calculator
import Verif.Spec.Calculator
import Verif.Proofs.Calculator
import Verif.Proofs.Calculator2
import Verif.Proofs.Calculator3
import Verif.Proofs.Calculator4
import Verif.Props.Calculator
import Verif.Spec.LeftRank
import Verif.Proofs.LeftRank
import Verif.Proofs.LeftRank2
import Verif.Proofs.LeftRank3
import Verif.Proofs.LeftRank4
import Verif.Proofs.LeftRank5
import Verif.Proofs.LeftRank6
import Verif.Props.LeftRank
import Verif.Model.Origins
import Verif.Spec.Seen
import Verif.Proofs.Seen
import Verif.Proofs.Origins
import Verif.Props.Origins
import Verif.Spec.Same
import Verif.Proofs.Same
import Verif.Proofs.Rename
import Verif.Proofs.Order
import Verif.Props.Same
import Verif.Model.Precedence
import Verif.Spec.Precedence
import Verif.Proofs.Precedence
import Verif.Props.Precedence
import Verif.Model.Readme
import Verif.Spec.Readme
import Verif.Proofs.Deriv
import Verif.Proofs.Readme
import Verif.Props.Readme
import Verif.Spec.Joins
import Verif.Proofs.Joins
import Verif.Props.Joins
import Verif.Spec.Precedence2
import Verif.Model.Precedence2
import Verif.Proofs.Precedence2
import Verif.Props.Precedence2
import Verif.Model.LispExpr
import Verif.Spec.Lisp
import Verif.Model.Lisp
import Verif.Proofs.Lisp
import Verif.Proofs.LispOnly
import Verif.Props.LispOnly
import Verif.Props.Lisp
import Verif.Model.LispMachine
import Verif.Spec.LispMachine
import Verif.Proofs.LispMachine
import Verif.Props.LispMachine
import Verif.Props.LispMachine2
import Verif.Spec.WellFormed
import Verif.Proofs.WellFormed
import Verif.Props.WellFormed
import Verif.Proofs.Invert
import Verif.Model.Color
import Verif.Spec.Color
import Verif.Proofs.Until
import Verif.Proofs.Readme2
import Verif.Props.Readme2
import Verif.Proofs.Color
import Verif.Proofs.ColorPanic
import Verif.Props.Color
import Verif.Spec.Report
import Verif.Props.Report
import Verif.Spec.WellFormedLeft
import Verif.Proofs.WellFormedLeft
import Verif.Props.WellFormedLeft
import Verif.Spec.ChainOnly
import Verif.Proofs.ChainOnly
import Verif.Props.ChainOnly
import Verif.Props.Work
import Verif.Props.Unmemoised
import Verif.Props.Laws
import Verif.Props.BuildCost
import Verif.Spec.Indirect
import Verif.Proofs.Indirect1
import Verif.Proofs.Indirect2
import Verif.Proofs.Indirect3
import Verif.Proofs.Indirect4
import Verif.Props.Indirect
import Verif.Model.LispPrint
import Verif.Spec.LispPrint
import Verif.Proofs.LispPrint
import Verif.Props.LispPrint
import Verif.Props.LispPrint2
import Verif.Model.LispRepl
import Verif.Spec.LispRepl
import Verif.Props.LispRepl
import Verif.Props.Splice
import Verif.Props.Traced
import Verif.Spec.Spliced
import Verif.Proofs.Spliced
import Verif.Proofs.WellFormedCheck
import Verif.Props.Merged
import Verif.Spec.OwnMaps
import Verif.Props.RealMaps
import Verif.Props.Deep
import Verif.Model.PrintRules
import Verif.Spec.RuleTable
import Verif.Props.RuleTable
import Verif.Props.AnySequence
import Verif.Spec.GoText
import Verif.Props.GoText
import Verif.Spec.TokenReport
import Verif.Props.TokenReport
import Verif.Model.ErrorHandling
import Verif.Spec.ErrorHandling
import Verif.Proofs.ErrorHandling
import Verif.Props.ErrorHandling
import Verif.Model.Attr
import Verif.Spec.Attr
import Verif.Props.Attr
import Verif.Props.DeepMore
import Verif.Model.Visits
import Verif.Spec.Visits
import Verif.Spec.VisitsSample
import Verif.Proofs.Visits
import Verif.Proofs.Visits2
import Verif.Proofs.Visits3
import Verif.Proofs.Visits4
import Verif.Proofs.Visits5
import Verif.Props.Visits
import Verif.Spec.Renamed
import Verif.Proofs.Renamed
import Verif.Proofs.Renamed2
import Verif.Props.Renamed
import Verif.Proofs.Unused
import Verif.Proofs.Unused2
import Verif.Proofs.Unused3
import Verif.Proofs.Unused4
import Verif.Props.Unused
import Verif.Model.Objects
import Verif.Spec.Objects
import Verif.Proofs.Objects
import Verif.Props.Objects
import Verif.Model.Lifecycle
import Verif.Props.Lifecycle
import Verif.Model.Regexp
import Verif.Spec.Regexp
import Verif.Proofs.Regexp
import Verif.Proofs.Regexp2
import Verif.Proofs.Regexp3
import Verif.Proofs.Regexp4
import Verif.Props.Regexp
import Verif.Proofs.Regexp5
import Verif.Props.Regexp2
import Verif.Model.TraceLog
import Verif.Spec.TraceLog
import Verif.Proofs.TraceLog
import Verif.Proofs.TraceLog2
import Verif.Proofs.TraceLog3
import Verif.Proofs.TraceLog4
import Verif.Proofs.TraceLog5
import Verif.Proofs.TraceLog6
import Verif.Props.TraceLog
import Verif.Props.TraceLogTokens
import Verif.Model.Overlap
import Verif.Spec.Overlap
import Verif.Proofs.Overlap
import Verif.Proofs.Overlap2
import Verif.Props.Overlap
import Verif.Spec.Shift
import Verif.Proofs.Shift
import Verif.Proofs.Shift2
import Verif.Props.Shift
import Verif.Props.Regexp3
import Verif.Props.Regexp4
import Verif.Spec.RegexpText
import Verif.Proofs.RegexpText
import Verif.Proofs.RegexpText2
import Verif.Props.RegexpText
import Verif.Props.RegexpText2
import Verif.Props.RegexpText3
import Verif.Props.RegexpText4
import Verif.Props.RuleTable2
import Verif.Model.Slices
import Verif.Spec.Slices
import Verif.Proofs.Slices
import Verif.Props.Slices
import Verif.Props.Heap2
import Verif.Props.PrintRegex
import Verif.Model.SharedMaps
import Verif.Spec.SharedMaps
import Verif.Proofs.SharedMaps
import Verif.Props.SharedMaps
import Verif.Props.TokenReport2
import Verif.Model.LineText
import Verif.Spec.LineText
import Verif.Proofs.LineText
import Verif.Proofs.LineText2
import Verif.Props.LineText
import Verif.Spec.NativeText
import Verif.Proofs.NativeText
import Verif.Props.NativeText
import Verif.Model.StreamText
import Verif.Spec.StreamText
import Verif.Props.StreamText
import Verif.Model.Conversions
import Verif.Props.Conversions
import Verif.Props.NativeText2
