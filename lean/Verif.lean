import Verif.Examples
import Verif.Lemmas.Alike
import Verif.Lemmas.AlikeTransfer
import Verif.Lemmas.Bounds
import Verif.Lemmas.BoundsCover
import Verif.Lemmas.BoundsQuotient
import Verif.Lemmas.Cache
import Verif.Lemmas.ClockGraph
import Verif.Lemmas.ClockGroups
import Verif.Lemmas.Collect
import Verif.Lemmas.Compile
import Verif.Lemmas.Consistency
import Verif.Lemmas.Convex
import Verif.Lemmas.Determinism
import Verif.Lemmas.Display
import Verif.Lemmas.Expr
import Verif.Lemmas.ExprDim
import Verif.Lemmas.GuardOf
import Verif.Lemmas.Indistinguishable
import Verif.Lemmas.InputEnabler
import Verif.Lemmas.Join
import Verif.Lemmas.NotCut
import Verif.Lemmas.Print
import Verif.Lemmas.Product
import Verif.Lemmas.Project
import Verif.Lemmas.Protocol
import Verif.Lemmas.PruneEnds
import Verif.Lemmas.PruneLoop
import Verif.Lemmas.PruneRun
import Verif.Lemmas.PruneSteps
import Verif.Lemmas.Pruned
import Verif.Lemmas.QuotientDet
import Verif.Lemmas.Reachability
import Verif.Lemmas.Recipe
import Verif.Lemmas.ReduceClocks
import Verif.Lemmas.ReduceMap
import Verif.Lemmas.Reduced
import Verif.Lemmas.ReducedComp
import Verif.Lemmas.ReducedParts
import Verif.Lemmas.ReducedSys
import Verif.Lemmas.ReducedTo
import Verif.Lemmas.Refine
import Verif.Lemmas.RefineFail
import Verif.Lemmas.RefineReport
import Verif.Lemmas.Regions
import Verif.Lemmas.Renumber
import Verif.Lemmas.Run
import Verif.Lemmas.SaveComponent
import Verif.Lemmas.Split
import Verif.Lemmas.StateText
import Verif.Lemmas.SysGood
import Verif.Lemmas.System
import Verif.Lemmas.Terminate
import Verif.Lemmas.Text
import Verif.Lemmas.Transition
import Verif.Model.Answer
import Verif.Model.Cache
import Verif.Model.ClockReduction
import Verif.Model.Decision
import Verif.Model.EdgeText
import Verif.Model.Execute
import Verif.Model.Expr
import Verif.Model.Failures
import Verif.Model.InputEnabler
import Verif.Model.Loader
import Verif.Model.LocalConsistency
import Verif.Model.Print
import Verif.Model.Project
import Verif.Model.Protocol
import Verif.Model.PruneLoop
import Verif.Model.Pruning
import Verif.Model.QueryText
import Verif.Model.Reachability
import Verif.Model.Recipe
import Verif.Model.Refine
import Verif.Model.Respond
import Verif.Model.Response
import Verif.Model.SaveComponent
import Verif.Model.Serialization
import Verif.Model.Serve
import Verif.Model.Server
import Verif.Model.StateQuery
import Verif.Model.System
import Verif.Model.SystemDecls
import Verif.Model.Text
import Verif.Model.TransPath
import Verif.Model.Transition
import Verif.Model.Xml
import Verif.Props.C01
import Verif.Props.C02
import Verif.Props.C03
import Verif.Props.C04
import Verif.Props.C05
import Verif.Props.C06
import Verif.Props.C07
import Verif.Props.C08
import Verif.Props.C09
import Verif.Props.C10
import Verif.Props.C11
import Verif.Props.C12
import Verif.Props.C13
import Verif.Props.C14
import Verif.Props.C15
import Verif.Props.C16
import Verif.Props.C17
import Verif.Props.C18
import Verif.Props.C19
import Verif.Props.C20
import Verif.Props.C21
import Verif.Props.C22
import Verif.Props.C23
import Verif.Props.C24
import Verif.Props.C25
import Verif.Props.C26
import Verif.Props.C27
import Verif.Props.C28
import Verif.Props.C29
import Verif.Props.C30
import Verif.Props.C31
import Verif.Props.C32
import Verif.Props.C33
import Verif.Props.C34
import Verif.Props.C35
import Verif.Props.C36
import Verif.Props.C37
import Verif.Props.C38
import Verif.Props.C39
import Verif.Props.C40
import Verif.Props.C41
import Verif.Props.C42
import Verif.Props.C43
import Verif.Props.C44
import Verif.Props.C45
import Verif.Props.C46
import Verif.Props.C46Lookup
import Verif.Props.C47
import Verif.Props.C48
import Verif.Props.C48Builds
import Verif.Props.C49
import Verif.Props.C50
import Verif.Props.C51
import Verif.Props.C52
import Verif.Props.C53
import Verif.Props.C54
import Verif.Props.C54Written
import Verif.Props.C55
import Verif.Props.C56
import Verif.Props.C57
import Verif.Props.C58
import Verif.Props.C59
import Verif.Props.C59Saving
import Verif.Props.C60
import Verif.Props.C61
import Verif.Props.C62
import Verif.Props.C63
import Verif.Props.C64
import Verif.Props.C64Quot
import Verif.Props.C64Reach
import Verif.Props.C64Save
import Verif.Props.C64Settings
import Verif.Props.C65
import Verif.Props.C66
import Verif.Props.C67
import Verif.Props.C68
import Verif.Props.C69
import Verif.Props.C69Ends
import Verif.Props.C70
import Verif.Props.C72
import Verif.Props.C73
import Verif.Props.C73Text
import Verif.Props.C74
import Verif.Props.C75
import Verif.Props.C76
import Verif.Props.C77
import Verif.Props.C78
import Verif.Props.C78Prune
import Verif.Props.C78Query
import Verif.Props.C78Reach
import Verif.Props.C78Save
import Verif.Props.C79
import Verif.Props.C79Det
import Verif.Props.C79Expr
import Verif.Props.C80
import Verif.Props.C80Checks
import Verif.Props.C80Det
import Verif.Props.C80Quot
import Verif.Props.C80Saved
import Verif.Spec.ActionReport
import Verif.Spec.Adjoint
import Verif.Spec.Algebra
import Verif.Spec.Bounds
import Verif.Spec.Build
import Verif.Spec.Clocks
import Verif.Spec.Consistency
import Verif.Spec.FailureReport
import Verif.Spec.Guard
import Verif.Spec.Names
import Verif.Spec.Path
import Verif.Spec.PathReport
import Verif.Spec.Pattern
import Verif.Spec.Print
import Verif.Spec.Project
import Verif.Spec.Protocol
import Verif.Spec.Prune
import Verif.Spec.QueryText
import Verif.Spec.Quotient
import Verif.Spec.Recipe
import Verif.Spec.Reduction
import Verif.Spec.Refinement
import Verif.Spec.Report
import Verif.Spec.Respond
import Verif.Spec.SameMeaning
import Verif.Spec.Save
import Verif.Spec.Semantics
import Verif.Spec.Serve
import Verif.Spec.Server
import Verif.Spec.Stack
import Verif.Spec.StateQuery
import Verif.Spec.StateText
import Verif.Spec.Step
import Verif.Spec.System
import Verif.Spec.SystemDecls
import Verif.Spec.SystemText
import Verif.Spec.Termination
import Verif.Spec.Text
import Verif.Spec.TransPath
import Verif.Spec.Xml
import Verif.ZoneFinite
import Verif.ZoneImpl
import Verif.Zones
