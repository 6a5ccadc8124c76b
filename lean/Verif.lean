import Verif.Model.Bytes
import Verif.Model.Parser
import Verif.Props.Cache
import Verif.Props.Text
import Verif.Props.Http
import Verif.Props.Parser
import Verif.Props.ParserComplete
import Verif.Props.Naming
import Verif.Props.Registry
import Verif.Props.Time
import Verif.Props.Ctx
import Verif.Props.Introspect
import Verif.Props.Execute
import Verif.Props.Isolation
import Verif.Props.Respond
import Verif.Props.Rewriting
import Verif.Props.Functions
import Verif.Props.EveryCall
import Verif.Props.Values
import Verif.Props.ErrorPaths
import Verif.Props.StackWrap
import Verif.Props.Terminates
import Verif.Props.WellFormed
import Verif.Props.Arguments
import Verif.Props.Lookup
import Verif.Props.Float
import Verif.Props.ArgTypes
import Verif.Model.TypeWalk
import Verif.Model.Tracing
import Verif.Spec.GoTypes
import Verif.Spec.Reflects
import Verif.Spec.GoDemo
import Verif.Proofs.TypeWalk
import Verif.Proofs.TypeWalkIn
import Verif.Proofs.TypeWalkLink
import Verif.Proofs.TypeWalkGen
import Verif.Proofs.TypeWalkFuel
import Verif.Proofs.TypeWalkTerm
import Verif.Proofs.TypeWalkTermIn
import Verif.Proofs.TypeWalkMirror
import Verif.Props.TypeWalk
import Verif.Model.Server
import Verif.Props.Server
import Verif.Props.HttpJson
import Verif.Props.HttpAnswers
import Verif.Props.Copy
import Verif.Proofs.Tracing
import Verif.Proofs.TraceInv
import Verif.Props.Tracing
import Verif.Model.Globals
import Verif.Props.Globals
import Verif.Model.TypeList
import Verif.Spec.TypeList
import Verif.Props.TypeList
import Verif.Props.Roots
import Verif.Props.DirectiveList
import Verif.Proofs.WorldSim
import Verif.Spec.Schedule
import Verif.Props.Schedules
import Verif.Model.Pool
import Verif.Props.Pool
import Verif.Spec.Cut
import Verif.Proofs.CutText
import Verif.Props.Cut
import Verif.Proofs.TextTok
import Verif.Proofs.TextNum
import Verif.Proofs.TextStr
import Verif.Proofs.TextVal
import Verif.Proofs.TextDir
import Verif.Proofs.TextSel
import Verif.Proofs.TextDoc
import Verif.Props.ParserSound
import Verif.Props.EveryText
import Verif.Props.HttpTexts
import Verif.Props.Pointers
import Verif.Props.IfaceArgs
import Verif.Props.EveryValue
import Verif.Props.Escapes
import Verif.Spec.Delivered
import Verif.Spec.Explained
import Verif.Spec.ParamTypes
import Verif.Proofs.DeliverAny
import Verif.Props.EveryError
import Verif.Props.ParamTypes
import Verif.Props.Order
import Verif.Props.Respell
import Verif.Props.Alias
import Verif.Props.Strings
import Verif.Props.Unbounded
import Verif.Props.DepthAll
import Verif.Props.Todo
import Verif.Props.Body
import Verif.Props.Siblings
import Verif.Props.Diff
import Verif.Props.Flat
import Verif.Props.Grow
import Verif.Props.Assert
import Verif.Props.AssertError
