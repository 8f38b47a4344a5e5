import Verif.Py.Str
import Verif.Py.UniTables
import Verif.Py.Re
import Verif.Py.ReParse
import Verif.Py.Dict
import Verif.Creole.Tree
import Verif.Creole.Rules
import Verif.Creole.Parser
import Verif.Creole.Emitter
import Verif.Creole.ExampleMacros
import Verif.Tests.Creole2Html
import Verif.Py.ReLemmas
import Verif.Py.StrLemmas
import Verif.Creole.ParserLemmas
import Verif.Creole.EmitterLemmas
import Verif.Creole.TocLemmas
import Verif.Creole.SafeLemmas
import Verif.Spec.Html
import Verif.Props.Totality
import Verif.Props.Safety
import Verif.Spec.Toc
import Verif.Spec.Lines
import Verif.Py.DictLemmas
import Verif.Props.Toc
import Verif.Props.LineEndings
import Verif.Props.Macros
import Verif.Props.Args
import Verif.Props.ArticlePre
import Verif.Spec.CodeBlock
import Verif.Props.CodeBlock
import Verif.Spec.ThereBack
import Verif.Props.ThereBack
import Verif.Props.Attrs
import Verif.Html.Entities
import Verif.Html.Tokenizer
import Verif.Html.Strip
import Verif.Html.Deentity
import Verif.Html.Parser
import Verif.Spec.HtmlTree
import Verif.Html.ParserLemmas
import Verif.Props.HtmlParser
import Verif.Py.ReHead
import Verif.Props.StripHtml
import Verif.Spec.Words
import Verif.Html.StripWords
import Verif.Props.StripWords
import Verif.Props.Deentity
import Verif.Spec.PreAreas
import Verif.Props.PreAreas
import Verif.Emit.Table
import Verif.Emit.QuoteLink
import Verif.Emit.Emitter
import Verif.Tests.Html2X
import Verif.Py.StripLemmas
import Verif.Emit.EmitLemmas
import Verif.Spec.Table
import Verif.Spec.Emit
import Verif.Spec.Lists
import Verif.Props.Table
import Verif.Props.Unknown
import Verif.Props.Typeface
import Verif.Props.Lists
import Verif.Emit.Steps
import Verif.Props.EmitText
import Verif.Spec.Rest
import Verif.Props.RestLinks
import Verif.Spec.Creole
import Verif.Creole.ScanLemmas
import Verif.Creole.InlineScan
import Verif.Creole.InlineRun
import Verif.Creole.InlineMain
import Verif.Creole.MacroScan
import Verif.Spec.CreoleDoc
import Verif.Creole.BlockScan
import Verif.Creole.BlockMatch
import Verif.Creole.BlockHits
import Verif.Creole.PreText
import Verif.Creole.BlockRun
import Verif.Creole.BlockSteps
import Verif.Creole.BlockKinds
import Verif.Creole.ListTree
import Verif.Creole.ListRun
import Verif.Creole.TableRun
import Verif.Creole.DocMain
import Verif.Spec.CreoleLists
import Verif.Spec.Calls
import Verif.Creole.ListBranches
import Verif.Spec.Plain
import Verif.Spec.Pypi
import Verif.Creole.PlainLemmas
import Verif.Props.Documents
import Verif.Spec.Spans
import Verif.Props.Inline
import Verif.Tools.Text
import Verif.Tools.Rest
import Verif.Tools.Cli
import Verif.Tools.CliArgs
import Verif.Tests.Cli
import Verif.Tools.Setup
import Verif.Props.CleanWhitespace
import Verif.Props.RestTools
import Verif.Props.Cli
import Verif.Props.Setup
import Verif.Props.MacroCalls
import Verif.Spec.HtmlDoc
import Verif.Html.TokenLemmas
import Verif.Html.TagLemmas
import Verif.Html.StripMatch
import Verif.Html.ReadDoc
import Verif.Html.ReadPre
import Verif.Props.ReadHtml
import Verif.Props.ReadPre
import Verif.Spec.RoundTrip
import Verif.Emit.Back
import Verif.Emit.BackInline
import Verif.Emit.BackBlocks
import Verif.Emit.BackWritten
import Verif.Emit.BackStable
import Verif.Emit.BackNorm
import Verif.Props.RoundTrip
import Verif.Spec.RoundTripPre
import Verif.Emit.PartsRead
import Verif.Emit.BackPre
import Verif.Props.RoundTripPre
import Verif.Spec.Faults
import Verif.Props.Faults
import Verif.Html.TokenErrors
import Verif.Spec.ParseFaults
import Verif.Props.ParseFaults
import Verif.Spec.Url
import Verif.Props.QuoteLink
import Verif.Spec.Article
import Verif.Spec.ArticlePre
import Verif.Spec.Attrs
import Verif.Emit.Article
import Verif.Emit.ArticleBlocks
import Verif.Emit.ArticlePre
import Verif.Props.Article
import Verif.Spec.ArticleRest
import Verif.Emit.ArticleRest
import Verif.Emit.ArticleRestBlocks
import Verif.Props.ArticleRest
import Verif.Spec.Kept
import Verif.Creole.ReCover
import Verif.Creole.Kept
import Verif.Creole.KeptInline
import Verif.Creole.KeptScan
import Verif.Creole.KeptBlock
import Verif.Creole.KeptEmit
import Verif.Props.Kept
import Verif.Spec.Shown
import Verif.Emit.ShownRefs
import Verif.Emit.Shown
import Verif.Emit.ShownTable
import Verif.Props.Shown
import Verif.Tools.Diff
import Verif.Spec.TocFree
import Verif.Spec.Patch
import Verif.Props.Diff
import Verif.Creole.Local
import Verif.Creole.BlockLocal
import Verif.Creole.BlockCut
import Verif.Creole.BlockLead
import Verif.Creole.Graft
import Verif.Creole.Firewall
import Verif.Spec.Firewall
import Verif.Props.Firewall
import Verif.Spec.Masked
import Verif.Emit.Masked
import Verif.Emit.MaskedDoc
import Verif.Props.Masked
import Verif.Spec.Pages
import Verif.Creole.PageRun
import Verif.Creole.PageToc
import Verif.Creole.PageTags
import Verif.Props.Pages
import Verif.Spec.Held
import Verif.Html.StripAny
import Verif.Html.AttrQuote
import Verif.Html.ReadAny
import Verif.Props.ReadAny
import Verif.Spec.Sized
import Verif.Spec.Grammar
import Verif.Creole.Shape
import Verif.Creole.ShapeBlock
import Verif.Creole.Render
import Verif.Props.Structure
import Verif.Html.FineRead
import Verif.Props.NeverFail
import Verif.Spec.Grid
import Verif.Html.FineText
import Verif.Html.FineTidy
import Verif.Html.FineGrid
import Verif.Props.Options
import Verif.Props.RoundText
import Verif.Spec.HeldPre
import Verif.Html.ReadPreAny
import Verif.Props.ReadPreAny
import Verif.Spec.Calling
import Verif.Creole.Holes
import Verif.Props.Calling
import Verif.Creole.UsedNames
import Verif.Spec.Contents
import Verif.Creole.Spots
import Verif.Props.Contents
import Verif.Props.Sharing
import Verif.Spec.Spelling
import Verif.Emit.Spelt
import Verif.Html.Spelt
import Verif.Html.SpeltRead
import Verif.Props.Spelling
import Verif.Emit.User
import Verif.Spec.User
import Verif.Props.User
import Verif.Props.ExampleMacros
import Verif.Tools.CleanWriter
import Verif.Props.CleanWriter
import Verif.Creole.MacroSource
import Verif.Props.MacroSource
import Verif.Emit.Apart
import Verif.Props.OneAfter
import Verif.Creole.ReRoom
import Verif.Creole.Weight
import Verif.Creole.EmitSize
import Verif.Props.Size
import Verif.Creole.Chosen
import Verif.Spec.Chosen
import Verif.Creole.ChosenLemmas
import Verif.Creole.ChosenLeft
import Verif.Creole.ChosenKinds
import Verif.Props.Chosen
import Verif.Spec.Growth
import Verif.Props.Growth
import Verif.Emit.Grow
import Verif.Emit.GrowNode
import Verif.Emit.GrowMeth
import Verif.Emit.GrowRest
import Verif.Emit.GrowParse
import Verif.Emit.GrowTree
import Verif.Emit.GrowCut
import Verif.Props.GrowthBound
import Verif.Spec.CommandLine
import Verif.Tools.CliWords
import Verif.Tools.CliLoop
import Verif.Props.CommandLine
import Verif.Spec.Arguments
import Verif.Py.Shlex
import Verif.Props.Arguments
import Verif.Props.MarkdownTable
import Verif.Props.CommandHelp
import Verif.Spec.ThereBackPre
import Verif.Props.ThereBackPre
import Verif.Spec.RoundTripWiki
import Verif.Props.RoundTripWiki
import Verif.Props.ThereBackWiki
import Verif.Props.Ends
import Verif.Tools.CleanTables
import Verif.Props.CleanTables
import Verif.Tools.RestSettings
import Verif.Props.RestSettings
