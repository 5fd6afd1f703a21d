import Verif.Props.NamedList
import Verif.Props.Items
import Verif.Props.Define
import Verif.Props.Classes
import Verif.Props.Race
import Verif.Props.RaceExact
import Verif.Props.CallsExact
import Verif.Props.QName
import Verif.Props.Signature
import Verif.Props.Types
import Verif.Props.Flags
import Verif.Props.Errors
import Verif.Props.Registry
import Verif.Props.TypeList
import Verif.Props.TypeTraits
import Verif.Props.TypeTraitsExact
import Verif.Props.Text
import Verif.Props.Lazy
import Verif.Props.LazyRace
import Verif.Props.LazyFail
import Verif.Props.LazyReach
import Verif.Props.VariantMem
import Verif.Props.VariantOdd
import Verif.Props.VariantExact
import Verif.Props.Value
import Verif.Props.Equal
import Verif.Props.EqualExact
import Verif.Props.EqualDeep
import Verif.Props.Invoke
import Verif.Props.Builder
import Verif.Props.MetaCast
import Verif.Props.Construct
import Verif.Props.Force
import Verif.Props.ForceAny
import Verif.Props.QNameRace
import Verif.Props.AttrRace
import Verif.Props.Faults
import Verif.Props.FaultsExact
import Verif.Props.RegFaults
import Verif.Props.TypeRace
import Verif.Props.FunctionTraits
import Verif.Props.ScopeGuard
import Verif.Props.CompatDeep
import Verif.Props.ValueEdge
import Verif.Props.Shutdown
import Verif.Props.WalkRace
import Verif.Props.CastRace
import Verif.Props.CastMoment
import Verif.Props.WalkFirst
import Verif.Props.DefineEmpty
import Verif.Props.ConvRace
import Verif.Props.ConvRaceExact
import Verif.Props.InvokeEdge
import Verif.Props.Call
import Verif.Props.Linked
import Verif.Props.Ctor
import Verif.Props.CtorKinds
import Verif.Props.EachRace
import Verif.Props.CompatArray
import Verif.Props.ValueArray
import Verif.Props.ValueDeep
import Verif.Props.Reading
import Verif.Props.ReadingCall
import Verif.Props.Align
import Verif.Props.CallMem
import Verif.Tests.Inheritance
import Verif.Tests.MetaType
import Verif.Tests.GlobalNs
import Verif.Tests.Tutorial
import Verif.Tests.Variant
import Verif.Tests.StdNs
import Verif.Props.CallLink
import Verif.Props.CallVal
import Verif.Props.CallValLink
import Verif.Props.PropMem
import Verif.Props.PropGet
import Verif.Props.BuilderReuse
import Verif.Props.Exact
import Verif.Props.ExactValue
import Verif.Props.ExactLookup
import Verif.Props.ExactCall
import Verif.Props.ErrorsExact
import Verif.Props.CallRef
import Verif.Props.DefineRefused
import Verif.Spec.Circles
import Verif.Lemmas.Circles
import Verif.Props.Circles
import Verif.Props.Links
import Verif.Props.IndexLoop
import Verif.Props.ClassFind
import Verif.Props.VariantIds
import Verif.Props.CallIds
import Verif.Props.EqualIds
import Verif.Props.ClassOrigin
import Verif.Props.DeclaredAccess
import Verif.Props.DeclaredCall
import Verif.Model.InPlace
import Verif.Spec.InPlace
import Verif.Lemmas.InPlace
import Verif.Lemmas.InPlaceRun
import Verif.Props.InPlace
import Verif.Model.SelfType
import Verif.Props.SelfType
import Verif.Props.EqualTemps
import Verif.Props.InPlaceBlk
import Verif.Props.LazyAny
