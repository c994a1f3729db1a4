import Verif.Model.Str
import Verif.Model.Err
import Verif.Model.Value
import Verif.Model.Desc
import Verif.Model.Positional
import Verif.Model.Cmdline
import Verif.Model.Parsers
import Verif.Model.VarMap
import Verif.Model.Split
import Verif.Model.Convert
import Verif.Model.Format
import Verif.Tests.CmdlineTest
import Verif.Tests.SourcesTest
import Verif.Tests.StoreTest
import Verif.Tests.ExceptionTest
import Verif.Tests.UnicodeTest
import Verif.Tests.FormatTest
import Verif.Props.Lookup
import Verif.Props.Positional
import Verif.Props.Style
import Verif.Props.Environment
import Verif.Props.Value
import Verif.Props.Store
import Verif.Props.Occurrences
import Verif.Props.Notify
import Verif.Props.Config
import Verif.Props.Messages
import Verif.Props.Split
import Verif.Props.Convert
import Verif.Props.Format
import Verif.Props.Help
import Verif.Props.Parse
import Verif.Props.Tokens
import Verif.Props.Spelling
import Verif.Props.EndToEnd
import Verif.Props.Grammar
import Verif.Props.Refusal
import Verif.Props.ConfigGrammar
import Verif.Props.StoreGrammar
import Verif.Props.Typed
import Verif.Props.Mention
import Verif.Props.Verbatim
import Verif.Props.Wide
import Verif.Props.WideExact
import Verif.Props.WideConfig
import Verif.Props.Strict
import Verif.Props.Guess
import Verif.Props.GuessExact
import Verif.Props.Compose
import Verif.Props.Copies
import Verif.Props.SplitGrammar
import Verif.Props.WideSplit
import Verif.Spec.Explain
import Verif.Props.Explain
import Verif.Spec.Tree
import Verif.Spec.Help
import Verif.Props.HelpText
import Verif.Spec.Convert
import Verif.Props.Values
import Verif.Spec.StoreExplain
import Verif.Props.StoreExplain
import Verif.Props.RoundTrip
import Verif.Props.Sources
import Verif.Spec.Utf8
import Verif.Props.Utf8
import Verif.Spec.Stored
import Verif.Props.Stored
import Verif.Props.Program
import Verif.Props.Forward
import Verif.Props.TwoPrograms
import Verif.Props.Raw
import Verif.Props.Stream
import Verif.Props.Usage
import Verif.Props.FileExplain
import Verif.Props.NormalForm
import Verif.Props.Known
import Verif.Props.Interchange
import Verif.Props.Rerun
import Verif.Props.Exact
import Verif.Props.OwnName
import Verif.Props.Variables
import Verif.Props.Declare
import Verif.Props.Several
import Verif.Props.Exact2
import Verif.Props.Extra
import Verif.Props.Given
import Verif.Props.Written
import Verif.Props.Hierarchy
import Verif.Props.Caught
import Verif.Lemmas.FlagProbes
import Verif.Spec.Flags
import Verif.Props.Flags
import Verif.Model.MultipleSources
import Verif.Spec.MultipleSources
import Verif.Props.MultipleSources
import Verif.Props.MessageLoops
import Verif.Model.EnvOptions
import Verif.Spec.EnvOptions
import Verif.Props.EnvOptions
import Verif.Spec.OnceOnly
import Verif.Props.OnceOnly
import Verif.Model.Programs
import Verif.Spec.Programs
import Verif.Props.Programs
import Verif.Spec.CharSet
import Verif.Props.CharSet
import Verif.Model.Notify
import Verif.Spec.Notify
import Verif.Props.Host
import Verif.Spec.Usual
import Verif.Props.Usual
import Verif.Model.DescProgram
import Verif.Spec.DescProgram
import Verif.Props.DescProgram
import Verif.Model.Custom
import Verif.Spec.Custom
import Verif.Props.Custom
import Verif.Model.RegexProgram
import Verif.Spec.RegexProgram
import Verif.Props.RegexProgram
import Verif.Spec.Joined
import Verif.Props.Joined
import Verif.Model.ExtraPrograms
import Verif.Spec.ExtraPrograms
import Verif.Props.ExtraPrograms
import Verif.Spec.SharedFile
import Verif.Props.SharedFile
import Verif.Model.Ctype
import Verif.Spec.Ctype
import Verif.Props.Ctype
import Verif.Model.Lifetime
import Verif.Spec.Lifetime
import Verif.Lemmas.Lifetime
import Verif.Props.Lifetime
import Verif.Props.Destroyed
import Verif.Props.DestroyLast
import Verif.Props.RunDangling
import Verif.Props.StoreDangling
import Verif.Props.NextMaps
import Verif.Props.DescSizes
import Verif.Model.Release
import Verif.Spec.Release
import Verif.Props.Release
import Verif.Spec.Tabs
import Verif.Props.Tabs
import Verif.Model.ReleaseParse
import Verif.Spec.ReleaseParse
import Verif.Props.ReleaseParse
import Verif.Spec.Implicit
import Verif.Props.Implicit
import Verif.Spec.Forward
import Verif.Props.ForwardExact
import Verif.Model.ExtraCalls
import Verif.Lemmas.ExtraCalls
import Verif.Props.ExtraCalls
import Verif.Spec.Unregistered
import Verif.Props.Unregistered
import Verif.Model.Reentrant
import Verif.Spec.Reentrant
import Verif.Lemmas.Reentrant
import Verif.Props.Reentrant
import Verif.Props.WideString
import Verif.Props.KnownExact
import Verif.Model.Builder
import Verif.Spec.Builder
import Verif.Props.Builder
import Verif.Props.Unused
import Verif.Model.Exception
import Verif.Spec.Exception
import Verif.Props.Exception
import Verif.Props.Placeholders
import Verif.Model.ParserCalls
import Verif.Spec.ParserCalls
import Verif.Props.ParserCalls
import Verif.Spec.DeclOrder
import Verif.Lemmas.DeclOrder
import Verif.Props.DeclOrder
import Verif.Model.Links
import Verif.Spec.Links
import Verif.Lemmas.Links
import Verif.Props.Links
import Verif.Model.Edit
import Verif.Spec.Edit
import Verif.Lemmas.Edit
import Verif.Props.Edit
import Verif.Model.Pointer
import Verif.Spec.Pointer
import Verif.Props.Pointer
import Verif.Model.HelpStream
import Verif.Spec.HelpStream
import Verif.Lemmas.HelpStream
import Verif.Props.HelpStream
import Verif.Spec.StyleParser
import Verif.Lemmas.StyleParser
import Verif.Props.StyleParser
import Verif.Spec.AddCalls
import Verif.Props.AddCalls
import Verif.Spec.GrammarAll
import Verif.Lemmas.GrammarAll
import Verif.Props.GrammarAll
import Verif.Props.MessageGrows
import Verif.Spec.LineFault
import Verif.Props.LineQuoted
import Verif.Props.Abbreviation
import Verif.Props.FileParts
import Verif.Props.UnusedStored
import Verif.Props.SourceParts
import Verif.Props.ComposePositional
import Verif.Model.Threads
import Verif.Props.Threads
import Verif.Spec.StyleGrammar
import Verif.Lemmas.StyleGrammar
import Verif.Props.StyleGrammar
import Verif.Model.EnvIters
import Verif.Props.EnvIters
import Verif.Props.FileSources
import Verif.Props.CaseLines
import Verif.Props.Sticky
import Verif.Props.Forms
import Verif.Props.Letters
import Verif.Props.LettersFile
import Verif.Props.LettersStore
import Verif.Props.LettersHelp
import Verif.Props.LettersSplit
import Verif.Model.FileTypes
import Verif.Spec.FileTypes
import Verif.Props.FileTypes
import Verif.Model.Quick
import Verif.Spec.Quick
import Verif.Props.Quick
import Verif.Spec.LettersNotify
import Verif.Props.LettersNotify
import Verif.Spec.Prefixes
import Verif.Props.Prefixes
import Verif.Spec.FileCut
import Verif.Props.FileCut
import Verif.Props.StoreCut
import Verif.Props.LineCut
import Verif.Props.WideCut
import Verif.Spec.LeaveOut
import Verif.Props.LeaveOut
import Verif.Props.LeaveArgs
