import Verif.Audit
import Verif.Model.Access
import Verif.Model.Attributes
import Verif.Model.Blocks
import Verif.Model.Bytes
import Verif.Model.Changelog
import Verif.Model.Codec
import Verif.Model.Conditions
import Verif.Model.Constants
import Verif.Model.Construct
import Verif.Model.ConstructRegex
import Verif.Model.Context
import Verif.Model.Equality
import Verif.Model.FormatText
import Verif.Model.Formatter
import Verif.Model.Heap
import Verif.Model.Lifecycle
import Verif.Model.ListMethods
import Verif.Model.MacroDefinitions
import Verif.Model.Macros
import Verif.Model.Operations
import Verif.Model.Options
import Verif.Model.OptionsMapping
import Verif.Model.Packager
import Verif.Model.Prep
import Verif.Model.Release
import Verif.Model.Repr
import Verif.Model.ReprText
import Verif.Model.Sections
import Verif.Model.Sharing
import Verif.Model.Slices
import Verif.Model.Sourcelist
import Verif.Model.Sources
import Verif.Model.SourcesMethods
import Verif.Model.SpecParser
import Verif.Model.Stderr
import Verif.Model.Tags
import Verif.Model.Text
import Verif.Model.UpdateValue
import Verif.Model.Url
import Verif.Model.Utils
import Verif.Model.ValueParser
import Verif.Proof.Access
import Verif.Proof.Access2
import Verif.Proof.Access3
import Verif.Proof.Attributes
import Verif.Proof.Blocks
import Verif.Proof.Brackets
import Verif.Proof.Bytes
import Verif.Proof.Changelog
import Verif.Proof.Changelog2
import Verif.Proof.Changelog3
import Verif.Proof.Changelog4
import Verif.Proof.Changelog5
import Verif.Proof.Changelog6
import Verif.Proof.Collect
import Verif.Proof.Comments
import Verif.Proof.ConditionLine
import Verif.Proof.Conditions
import Verif.Proof.Conditions2
import Verif.Proof.Conditions3
import Verif.Proof.Conditions4
import Verif.Proof.Conditions5
import Verif.Proof.Context
import Verif.Proof.Context2
import Verif.Proof.Equality
import Verif.Proof.Find
import Verif.Proof.Format
import Verif.Proof.Format2
import Verif.Proof.Format3
import Verif.Proof.Format4
import Verif.Proof.Format5
import Verif.Proof.Format6
import Verif.Proof.Format7
import Verif.Proof.Heap
import Verif.Proof.Heap2
import Verif.Proof.Heap3
import Verif.Proof.Heap4
import Verif.Proof.Lifecycle
import Verif.Proof.ListMethods
import Verif.Proof.Local
import Verif.Proof.MacroDefinitions
import Verif.Proof.MacroDefinitions2
import Verif.Proof.MacroDefinitions3
import Verif.Proof.MacroDefinitions4
import Verif.Proof.MacroDefinitions5
import Verif.Proof.MacroDefinitions6
import Verif.Proof.MacroDefinitions7
import Verif.Proof.Macros
import Verif.Proof.Operations
import Verif.Proof.OptionPieces
import Verif.Proof.Options
import Verif.Proof.OptionsMapping
import Verif.Proof.Prep
import Verif.Proof.Prep2
import Verif.Proof.Prep3
import Verif.Proof.Prep4
import Verif.Proof.Prep5
import Verif.Proof.Prep6
import Verif.Proof.Release
import Verif.Proof.Release2
import Verif.Proof.Release3
import Verif.Proof.Repeat
import Verif.Proof.Repeat2
import Verif.Proof.Repeat3
import Verif.Proof.Repr
import Verif.Proof.Repr2
import Verif.Proof.Repr3
import Verif.Proof.Repr4
import Verif.Proof.Sections
import Verif.Proof.Sections2
import Verif.Proof.Sections3
import Verif.Proof.Sections4
import Verif.Proof.Sections5
import Verif.Proof.Sharing
import Verif.Proof.Sharing2
import Verif.Proof.Sharing3
import Verif.Proof.Slices
import Verif.Proof.Sources
import Verif.Proof.Sources2
import Verif.Proof.Sources3
import Verif.Proof.Sources4
import Verif.Proof.Sources5
import Verif.Proof.Sources6
import Verif.Proof.Sources7
import Verif.Proof.Sources8
import Verif.Proof.SpecParser
import Verif.Proof.SpecParser2
import Verif.Proof.SpecParser3
import Verif.Proof.Stderr
import Verif.Proof.Tags
import Verif.Proof.Tags2
import Verif.Proof.Tags3
import Verif.Proof.Tags4
import Verif.Proof.Tags5
import Verif.Proof.Template
import Verif.Proof.Template2
import Verif.Proof.Template3
import Verif.Proof.Template4
import Verif.Proof.Template5
import Verif.Proof.Template6
import Verif.Proof.Text
import Verif.Proof.Tokenize
import Verif.Proof.Undo
import Verif.Proof.Update
import Verif.Proof.Update2
import Verif.Proof.Update3
import Verif.Proof.Update4
import Verif.Proof.Update5
import Verif.Proof.Update6
import Verif.Proof.Update7
import Verif.Proof.Url
import Verif.Proof.Utils
import Verif.Proof.ValueParser
import Verif.Proof.ValueParserInv
import Verif.Props.Access
import Verif.Props.Access2
import Verif.Props.Attributes
import Verif.Props.Blocks
import Verif.Props.Blocks2
import Verif.Props.Blocks3
import Verif.Props.Blocks4
import Verif.Props.Bumps
import Verif.Props.Bumps2
import Verif.Props.Bumps3
import Verif.Props.Bytes
import Verif.Props.Changelog
import Verif.Props.Collect
import Verif.Props.Conditions
import Verif.Props.Context
import Verif.Props.Equality
import Verif.Props.ForceParse
import Verif.Props.FormatText
import Verif.Props.Formatter
import Verif.Props.Heap
import Verif.Props.History
import Verif.Props.History2
import Verif.Props.History3
import Verif.Props.History4
import Verif.Props.History5
import Verif.Props.Label
import Verif.Props.Lifecycle
import Verif.Props.ListMethods
import Verif.Props.MacroDefinitions
import Verif.Props.Macros
import Verif.Props.Operations
import Verif.Props.Operations2
import Verif.Props.Options
import Verif.Props.OptionsMapping
import Verif.Props.Packager
import Verif.Props.Prep
import Verif.Props.Release
import Verif.Props.Repeat
import Verif.Props.Repr
import Verif.Props.Sections
import Verif.Props.Sharing
import Verif.Props.Slices
import Verif.Props.Sourcelist
import Verif.Props.Sources
import Verif.Props.SourcesMethods
import Verif.Props.SpecParser
import Verif.Props.Stderr
import Verif.Props.Tags
import Verif.Props.Template
import Verif.Props.Text
import Verif.Props.Undo
import Verif.Props.Undo2
import Verif.Props.UpdateReading
import Verif.Props.UpdateTag
import Verif.Props.UpdateValue
import Verif.Props.Url
import Verif.Props.Utils
import Verif.Props.Validity
import Verif.Props.ValueParser
import Verif.Py.Err
import Verif.Py.Int
import Verif.Py.Lemmas
import Verif.Py.More
import Verif.Py.Num
import Verif.Py.Seq
import Verif.Py.Seq2
import Verif.Py.Str
import Verif.Regex.Core
import Verif.Regex.First
import Verif.Regex.More
import Verif.Spec.Access
import Verif.Spec.Attributes
import Verif.Spec.Balance
import Verif.Spec.Blocks
import Verif.Spec.Brackets
import Verif.Spec.Bytes
import Verif.Spec.Changelog
import Verif.Spec.Collect
import Verif.Spec.Conditions
import Verif.Spec.Context
import Verif.Spec.DefinitionText
import Verif.Spec.Definitions
import Verif.Spec.Equality
import Verif.Spec.Find
import Verif.Spec.Format
import Verif.Spec.FormatText
import Verif.Spec.Heap
import Verif.Spec.History
import Verif.Spec.Label
import Verif.Spec.Lifecycle
import Verif.Spec.ListMethods
import Verif.Spec.Local
import Verif.Spec.Macros
import Verif.Spec.Operations
import Verif.Spec.Options
import Verif.Spec.OptionsMapping
import Verif.Spec.Packager
import Verif.Spec.Prep
import Verif.Spec.Reading
import Verif.Spec.Release
import Verif.Spec.Repeat
import Verif.Spec.Repr
import Verif.Spec.Sections
import Verif.Spec.Sharing
import Verif.Spec.Slices
import Verif.Spec.Sourcelist
import Verif.Spec.Sources
import Verif.Spec.SpecParser
import Verif.Spec.Stderr
import Verif.Spec.Tags
import Verif.Spec.Template
import Verif.Spec.Text
import Verif.Spec.Undo
import Verif.Spec.Update
import Verif.Spec.Url
import Verif.Spec.Value
import Verif.Spec.ValueGrammar
