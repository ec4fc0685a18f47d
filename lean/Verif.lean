import Verif.Naming.Props
import Verif.Naming.ExistsProps
import Verif.Cli.OutputProps
import Verif.Cli.SelectProps
import Verif.Cli.ProcessProps
import Verif.Parser.BuildProps
import Verif.Parser.LexerProps
import Verif.Parser.ParseProps
import Verif.Parser.KindProps
import Verif.Parser.LookaheadProps
import Verif.Parser.RecoverProps
import Verif.Parser.PrattProps
import Verif.Syntax.Cursor
import Verif.Syntax.Typed
import Verif.Rules.Run
import Verif.Rules.Definitions
import Verif.Syntax.Elements
import Verif.Syntax.Samples
import Verif.Rules.RunSpec
import Verif.Rules.RunLemmas
import Verif.Rules.StampLemmas
import Verif.Rules.Samples
import Verif.Rules.RunProps
import Verif.Syntax.Places
import Verif.Cli.Pieces
import Verif.Parser.LeafLemmas
import Verif.Syntax.NextToken
import Verif.Syntax.InLemmas
import Verif.Syntax.TypedLemmas
import Verif.Syntax.TypedProps
import Verif.Rules.LineEndingProps
import Verif.Rules.WhitespaceProps
import Verif.Rules.RangeProps
import Verif.Rules.OperatorProps
import Verif.Rules.FilterProps
import Verif.Rules.QuoteProps
import Verif.Syntax.Scoped
import Verif.Rules.DuplicateProps
import Verif.Rules.IndentProps
import Verif.Rules.Engine
import Verif.Rules.FixSamples
import Verif.Rules.EngineProps
import Verif.Rules.NameSamples
import Verif.Rules.NameProps
import Verif.Rules.HashKeyProps
import Verif.Rules.KnownProps
import Verif.Cli.Main
import Verif.Cli.MainLemmas
import Verif.Cli.MainProps
import Verif.Shape.Spec
import Verif.Shape.Regex
import Verif.Shape.Logic
import Verif.Shape.Rules
import Verif.Shape.Tactic
import Verif.Shape.Literal
import Verif.Shape.Expression
import Verif.Shape.Tags
import Verif.Shape.Twig
import Verif.Shape.Html
import Verif.Shape.Root
import Verif.Shape.AttachSpec
import Verif.Shape.Tree
import Verif.Shape.Props
import Verif.Shape.Accessors
import Verif.Rules.ParsedProps
import Verif.Rules.LineStarts
import Verif.Rules.LayoutFix
import Verif.Rules.LineEndingFix
import Verif.Rules.LineEndingConverge
import Verif.Layout.Spec
import Verif.Layout.Logic
import Verif.Layout.Quiet
import Verif.Layout.Tactic
import Verif.Layout.Grammar
import Verif.Layout.Main
import Verif.Layout.Samples
import Verif.Layout.TextSpec
import Verif.Layout.Leading
import Verif.Layout.Widen
import Verif.Layout.BreakSpec
import Verif.Layout.Breaks
import Verif.Layout.BreakEdits
import Verif.Layout.BlockPlaces
import Verif.Layout.Lex
import Verif.Layout.Edits
import Verif.Layout.LineSuggestions
import Verif.Layout.LineBreakSpec
import Verif.Layout.LineBreaks
import Verif.Layout.LineBreakEdits
import Verif.Layout.TextSamples
import Verif.Layout.Cells
import Verif.Rules.BareMarks
import Verif.Rules.GapMarks
import Verif.Layout.Acts
import Verif.Layout.Stable
import Verif.Rules.LayoutCells
import Verif.Rules.BlankMarks
import Verif.Rules.LayoutRounds
import Verif.Rules.LayoutConverge
import Verif.Rules.BlockBreakProps
import Verif.Rules.BlockBreakFix
import Verif.Rules.BlockBreakApart
import Verif.Rules.BlockBreakRun
import Verif.Layout.BreakCells
import Verif.Rules.BreakGaps
import Verif.Rules.BreakBlind
import Verif.Rules.BreakSettled
import Verif.Template.Spec
import Verif.Template.Names
import Verif.Template.Run
import Verif.Template.Steps
import Verif.Template.Terms
import Verif.Template.Lists
import Verif.Template.Literals
import Verif.Template.Postfix
import Verif.Template.Operands
import Verif.Template.Parens
import Verif.Template.Parts
import Verif.Template.Tags
import Verif.Template.Elements
import Verif.Template.Derivation
import Verif.Template.Props
import Verif.Template.Samples
import Verif.Template.Requote
import Verif.Template.Unquote
import Verif.Template.Requoted
import Verif.Template.RequoteInduction
import Verif.Template.Strings
import Verif.Template.Cells
import Verif.Template.CellChange
import Verif.Template.Relay
import Verif.Template.Relaid
import Verif.Template.Walk
import Verif.Template.StringWalk
import Verif.Template.Turn
import Verif.Template.Turns
import Verif.Template.Tidy
import Verif.Rules.QuoteFix
import Verif.Rules.QuoteTurn
import Verif.Rules.NeatFix
import Verif.Rules.NeatTurn
import Verif.Rules.NeatAfter
import Verif.Rules.SeverityLemmas
import Verif.Rules.SeverityProps
import Verif.Rules.Diagnostics
import Verif.Rules.FixErrors
import Verif.Rules.BreakAfter
import Verif.Layout.Shifted
import Verif.Rules.BreakLayout
import Verif.Rules.BreakLayoutAfter
import Verif.Rules.OnlyBlanks
import Verif.Rules.OnlyQuotes
import Verif.Rules.SameLines
import Verif.Rules.OnlyBreaks
import Verif.Rules.LinesApart
