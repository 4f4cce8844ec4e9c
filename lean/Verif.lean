import Verif.Spec
import Verif.Iter
import Verif.Values
import Verif.Derive
import Verif.Lemmas.SafeRun
import Verif.Props.Elements
import Verif.Props.InsertRemove
import Verif.Props.RoundTrip
import Verif.Props.Bulk
import Verif.Props.Query
import Verif.Props.Iteration
import Verif.Props.Capacity
import Verif.Props.RawApi
import Verif.Props.EnumLike
import Verif.Props.EnumSet
import Verif.Props.History
import Verif.Props.Safety
import Verif.Props.Limit
import Verif.Props.Valid
import Verif.Recover
import Verif.Props.Recover
import Verif.StorageApi
import Verif.Props.StorageApi
import Verif.Debug
import Verif.Props.Debug
import Verif.Lemmas.Caps
import Verif.InlineSpec
import Verif.Lemmas.Inline
import Verif.Props.Inline
import Verif.Live
import Verif.Props.Live
import Verif.Machine
import Verif.Lemmas.Machine
import Verif.Props.Machine
import Verif.Props.Amortised
import Verif.Macro
import Verif.RustText
import Verif.Lemmas.MacroDerive
import Verif.Props.Macro
import Verif.MacroHeader
import Verif.RustHeader
import Verif.Lemmas.MacroHeader
import Verif.Props.MacroHeader
import Verif.Unsafe
import Verif.Props.Unsafe
import Verif.Interop
import Verif.Props.Interop
import Verif.Hostile
import Verif.Lemmas.Hostile
import Verif.Lemmas.HostilePure
import Verif.Lemmas.HostileRef
import Verif.Lemmas.HostilePanic
import Verif.ExactSpec
import Verif.Props.Exact
import Verif.UbSpec
import Verif.Props.Ub
import Verif.Props.Hostile
import Verif.Props.HostilePanic
import Verif.RepoTests
import Verif.MacroRules
import Verif.MacroRulesSpec
import Verif.Lemmas.MacroRules
import Verif.Props.MacroRules
import Verif.NumSpec
import Verif.Lemmas.Num
import Verif.Lemmas.NumStep
import Verif.Props.Num
import Verif.PanicSpec
import Verif.Props.Panic
import Verif.FootSpec
import Verif.Lemmas.Foot
import Verif.Lemmas.FootStep
import Verif.Props.Foot
import Verif.Props.AtLimit
import Verif.Stateful
import Verif.Lemmas.Stateful
import Verif.Props.Stateful
import Verif.EnumSetCode
import Verif.EnumSetCodeSpec
import Verif.Props.EnumSetCode
import Verif.CheckValues
import Verif.Props.CheckValues
import Verif.Access
import Verif.AccessSpec
import Verif.Props.Access
import Verif.Props.Calls
import Verif.RealSpec
import Verif.Props.Real
import Verif.Props.Readable
import Verif.FullSpec
import Verif.Props.Complete
import Verif.ThreadsSpec
import Verif.Lemmas.Threads
import Verif.Props.Threads
import Verif.LawsSpec
import Verif.Props.Laws
import Verif.EndToEndSpec
import Verif.Props.EndToEnd
import Verif.Source.Program
import Verif.Lemmas.SourceStep
import Verif.Props.Source
import Verif.Source.ConstEval
import Verif.Lemmas.SourceConst
import Verif.Props.SourceConst
import Verif.Source.LikeEval
import Verif.Lemmas.SourceLike
import Verif.Props.SourceLike
import Verif.Source.SetEval
import Verif.Lemmas.SourceSet
import Verif.Props.SourceSet
import Verif.EnumSetValSpec
import Verif.Props.EnumSetValues
import Verif.Props.MacroLawful
import Verif.Props.SourceWhole
import Verif.Source.MacroEngine
import Verif.Source.MacroText
import Verif.MacroTextSpec
import Verif.Lemmas.SourceMacro
import Verif.Props.SourceMacro
import Verif.Source.RestText
import Verif.Source.Rest
import Verif.Props.SourceRest
import Verif.Props.SourceEnumVec
import Verif.Props.SourceItems
import Verif.Source.QuoteEngine
import Verif.Source.QuoteText
import Verif.Source.DeriveEval
import Verif.Props.SourceDerive
import Verif.Source.ItemLookup
import Verif.Props.SourceFull
import Verif.ValuesTextSpec
import Verif.Props.SourceValues
import Verif.Props.SourceCoherent
import Verif.DealSpec
import Verif.Props.Deal
import Verif.HintSpec
import Verif.Props.SourceHint
