import Verif.Base
import Verif.Num.IntModel
import Verif.Num.IntProps
import Verif.Num.DoubleLemmas
import Verif.Num.NumberLemmas
import Verif.Num.NumberProps
import Verif.Num.TimeProps
import Verif.Text.Utf8Props
import Verif.Text.LiteralProps
import Verif.Text.LiteralMeaning
import Verif.Eval.AttributeProps
import Verif.Eval.LogicProps
import Verif.Eval.DispatchProps
import Verif.Eval.PlanProps
import Verif.Eval.Preserve
import Verif.Eval.PresProps
import Verif.Eval.Provenance
import Verif.Eval.Pure
import Verif.Data.EqualProps
import Verif.Data.MemberProps
import Verif.Data.BuildProps
import Verif.Data.EqOpProps
import Verif.Macro.MacroProps
import Verif.Macro.ShortCircuitTrace
import Verif.Macro.OwnSlots
import Verif.Macro.Bind
import Verif.Parser.Balance
import Verif.Source.Model
import Verif.Source.Props
import Verif.Names.Props
import Verif.Runtime.RegistryProps
import Verif.Runtime.ActivationProps
import Verif.Ext.Sets
import Verif.Ext.Lists
import Verif.Ext.Math
import Verif.Ext.StringsModel
import Verif.Ext.Strings
import Verif.Ext.StringsSplit
import Verif.Checker.Model
import Verif.Checker.Acyclic
import Verif.Checker.Termination
import Verif.Checker.Assign
import Verif.Checker.Sound
import Verif.Checker.Overloads
import Verif.Direct.Model
import Verif.Direct.Rel
import Verif.Direct.Lit
import Verif.Direct.SimBase
import Verif.Direct.Nodes
import Verif.Direct.Loops
import Verif.Direct.Agree
import Verif.Direct.Depth
import Verif.Direct.Examples
import Verif.Fold.Model
import Verif.Fold.Props
import Verif.Fold.Agree
import Verif.Fold.Examples
import Verif.Mem.RefCount
import Verif.Mem.RefCountProps
import Verif.Mem.RefCountExamples
import Verif.Mem.ByteString
import Verif.Mem.ByteStringSpec
import Verif.Mem.ByteStringBase
import Verif.Mem.ByteStringOps
import Verif.Mem.ByteStringProps
import Verif.Mem.ByteStringFind
import Verif.Mem.ByteStringExamples
import Verif.Syntax.Ast
import Verif.Syntax.Parser
import Verif.Syntax.Unparser
import Verif.Syntax.Spec
import Verif.Syntax.Reads
import Verif.Syntax.Compose
import Verif.Syntax.Chain
import Verif.Syntax.RoundTrip
import Verif.Syntax.Stable
import Verif.Syntax.Examples
import Verif.Policy.Ast
import Verif.Policy.Compile
import Verif.Policy.Spec
import Verif.Policy.FirstMatch
import Verif.Policy.Unnest
import Verif.Policy.Props
import Verif.Policy.Height
import Verif.Policy.Examples
import Verif.Sig.Model
import Verif.Sig.Flow
import Verif.Sig.RoundTrip
import Verif.Sig.Spec
import Verif.Sig.Props
import Verif.Sig.Main
import Verif.Sig.Canon
import Verif.Sig.Refuse
import Verif.Sig.Decl
import Verif.Sig.DeclProps
import Verif.Sig.Examples
import Verif.Types.Model
import Verif.Types.Spec
import Verif.Types.Clean
import Verif.Types.Alike
import Verif.Types.Rename
import Verif.Types.Mono
import Verif.Types.Infer1
import Verif.Types.Infer2
import Verif.Types.Infer3
import Verif.Types.Infer4
import Verif.Types.Infer5
import Verif.Types.Steps
import Verif.Types.Sound
import Verif.Types.Link
import Verif.Types.Decide
import Verif.Types.Examples
import Verif.Proto.Machine
import Verif.Proto.Slots
import Verif.Proto.Expr
import Verif.Proto.Fold
import Verif.Proto.Round
import Verif.Proto.Back
import Verif.Proto.Types
import Verif.Proto.Ast
import Verif.Proto.Erase
import Verif.Proto.EraseOk
import Verif.Proto.Main
import Verif.Walk.Model
import Verif.Walk.Trace
import Verif.Walk.Nav
import Verif.Walk.NavOk
import Verif.Walk.Rows
import Verif.Walk.Order
import Verif.Walk.Main
import Verif.Walk.Validators
import Verif.Walk.Occ
import Verif.Walk.ValidOk
import Verif.Walk.TypeEquiv
import Verif.Walk.Literals
import Verif.Walk.Times
import Verif.Conv.Numeral
import Verif.Conv.Civil
import Verif.Conv.Duration
import Verif.Conv.DurationBack
import Verif.Conv.Clock
import Verif.Conv.ClockProps
import Verif.Conv.Convert
import Verif.Conv.ConvertProps
import Verif.Conv.TsText
import Verif.Format.Model
import Verif.Format.Template
import Verif.Format.Texts
import Verif.Format.Numbers
import Verif.Opt.Model
import Verif.Opt.Props
import Verif.Macro.MapMacros
import Verif.Macro.MapMacroProps
import Verif.Macro.InPlace
import Verif.Macro.InPlaceProps
import Verif.Macro.InPlaceWitness
import Verif.Growth.Model
import Verif.Growth.Bound
import Verif.Growth.Linear
import Verif.Growth.Props
import Verif.Growth.Witness
import Verif.Growth.Nodes
import Verif.Regex.Model
import Verif.Regex.Props
import Verif.Regex.Witness
import Verif.Regex.Precompile
import Verif.Regex.PrecompileProps
import Verif.Regex.PrecompileWitness
import Verif.Json.Model
import Verif.Json.Spec
import Verif.Json.Props
import Verif.Json.Backed
import Verif.Json.Witness
import Verif.Json.Message
import Verif.Json.MessageSpec
import Verif.Json.MessageProps
import Verif.Json.MessageCamel
import Verif.Json.MessageMain
import Verif.Json.MessageLossless
import Verif.Json.MessageWitness
import Verif.MsgEq.Model
import Verif.MsgEq.Spec
import Verif.MsgEq.Props
import Verif.MsgEq.Main
import Verif.MsgEq.Agree
import Verif.MsgEq.Witness
import Verif.Select.Model
import Verif.Select.Spec
import Verif.Select.Rewrite
import Verif.Select.Sim
import Verif.Select.Front
import Verif.Select.Main
import Verif.Select.Theorem
import Verif.Select.Defects
import Verif.Select.Marks
import Verif.Builder.Theorem
import Verif.Builder.Witness
import Verif.Rewrite.Main
import Verif.Refs.Witness
import Verif.Ids.Witness
import Verif.Ids.Calls
import Verif.TypeConv.Config
import Verif.LegacyOrder.Props
import Verif.Mask.Props
import Verif.ToValue.Props
import Verif.Yaml.Props
import Verif.TypeName.Props
import Verif.Fields.Props
import Verif.Registry.Props
import Verif.Position.Props
