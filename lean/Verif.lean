import Verif.Double
import Verif.Ideal
import Verif.IdealLin
import Verif.Instances
import Verif.Lemmas.Attr
import Verif.Lemmas.CauchySum
import Verif.Lemmas.Cdf
import Verif.Lemmas.CoarseInst
import Verif.Lemmas.Combine
import Verif.Lemmas.Combine2
import Verif.Lemmas.DerivedLaw
import Verif.Lemmas.DoubleCalc
import Verif.Lemmas.Elem
import Verif.Lemmas.ExactInst
import Verif.Lemmas.FairInst
import Verif.Lemmas.Fl
import Verif.Lemmas.Fuel
import Verif.Lemmas.GammaLaw
import Verif.Lemmas.Hier
import Verif.Lemmas.IdealArith
import Verif.Lemmas.InvGaussLaw
import Verif.Lemmas.InvGaussMode
import Verif.Lemmas.Law
import Verif.Lemmas.LawDens
import Verif.Lemmas.LawLoop
import Verif.Lemmas.Limits
import Verif.Lemmas.Limits2
import Verif.Lemmas.LinInst
import Verif.Lemmas.MatIdeal
import Verif.Lemmas.Meets
import Verif.Lemmas.Mgf
import Verif.Lemmas.Mills
import Verif.Lemmas.Mode
import Verif.Lemmas.Moment
import Verif.Lemmas.Moment2
import Verif.Lemmas.Mono
import Verif.Lemmas.MultiLaw
import Verif.Lemmas.MvnImage
import Verif.Lemmas.Near
import Verif.Lemmas.NextInst
import Verif.Lemmas.Order
import Verif.Lemmas.Params
import Verif.Lemmas.PoisNorm
import Verif.Lemmas.PoisTail
import Verif.Lemmas.ProbIdeal
import Verif.Lemmas.Project
import Verif.Lemmas.QuantIdeal
import Verif.Lemmas.RandIdeal
import Verif.Lemmas.Range
import Verif.Lemmas.RealCdf
import Verif.Lemmas.RealCdf2
import Verif.Lemmas.RealDisc
import Verif.Lemmas.Round
import Verif.Lemmas.RoundInst
import Verif.Lemmas.RoundSpecial
import Verif.Lemmas.Sample
import Verif.Lemmas.Special
import Verif.Lemmas.Student
import Verif.Lemmas.SymJac
import Verif.Lemmas.SymMap
import Verif.Lemmas.TestLaw
import Verif.Lemmas.Tilt
import Verif.Lemmas.Trace
import Verif.Lemmas.WishLaw
import Verif.Lemmas.WishSum
import Verif.Lemmas.Work
import Verif.Lemmas.Wrap
import Verif.Model.Abs
import Verif.Model.BlazeMap
import Verif.Model.Dens
import Verif.Model.MatOps
import Verif.Model.Multi
import Verif.Model.Prob
import Verif.Model.Quant
import Verif.Model.Rand
import Verif.Model.Sanity
import Verif.Model.Seed
import Verif.Model.Trace
import Verif.Model.Types
import Verif.Model.Vec
import Verif.Model.Wrap
import Verif.Model.WrapTable
import Verif.Num
import Verif.Props.C01
import Verif.Props.C02
import Verif.Props.C04
import Verif.Props.C04F
import Verif.Props.C04G
import Verif.Props.C05
import Verif.Props.C06
import Verif.Props.C06F
import Verif.Props.C07
import Verif.Props.C08
import Verif.Props.C08D
import Verif.Props.C08E
import Verif.Props.C09
import Verif.Props.C09B
import Verif.Props.C09Ideal
import Verif.Props.C10
import Verif.Props.C10B
import Verif.Props.C11
import Verif.Props.C12
import Verif.Props.C13
import Verif.Props.C14
import Verif.Props.C15B
import Verif.Props.C16B
import Verif.Props.C16D
import Verif.Props.C16E
import Verif.Props.C16F
import Verif.Props.C16G
import Verif.Props.C16H
import Verif.Props.C17
import Verif.Props.C18
import Verif.Props.C20D
import Verif.Props.C20E
import Verif.Props.C21
import Verif.Props.C21B
import Verif.Props.C22
import Verif.Props.C23
import Verif.Props.C24
import Verif.Props.C26
import Verif.Props.C27
import Verif.Props.C28
import Verif.Props.C28B
import Verif.Props.C29
import Verif.Props.C31
import Verif.Props.C32
import Verif.Props.C32B
import Verif.Props.C32C
import Verif.Props.C33
import Verif.Props.C33B
import Verif.Props.C34
import Verif.Props.C35
import Verif.Props.C36
import Verif.Props.C36B
import Verif.Props.C37
import Verif.Props.C37D
import Verif.Props.C38
import Verif.Props.C39
import Verif.Props.C40
import Verif.Props.C40R
import Verif.Props.C40S
import Verif.Props.C41
import Verif.Props.C41B
import Verif.Props.C41C
import Verif.Props.C42
import Verif.Props.C42B
import Verif.Props.C42C
import Verif.Props.C43
import Verif.Props.C43G
import Verif.Props.C43H
import Verif.Props.C43Q
import Verif.Props.C43R
import Verif.Props.C44
import Verif.Props.C45
import Verif.Props.C46
import Verif.Props.C47
import Verif.Props.C47B
import Verif.Props.C47C
import Verif.Props.C48
import Verif.Props.C48B
import Verif.Props.C49
import Verif.Props.C49B
import Verif.Props.C49C
import Verif.Props.C49D
import Verif.Props.C49E
import Verif.Props.C49F
import Verif.Props.C49G
import Verif.Props.C49H
import Verif.Props.C49J
import Verif.Props.C49K
import Verif.Props.C49L
import Verif.Props.C49P
import Verif.Props.C50
import Verif.Props.C50B
import Verif.Props.C51
import Verif.Props.C51B
import Verif.Props.C51R
import Verif.Props.C52
import Verif.Props.C52B
import Verif.Props.C53
import Verif.Props.C53B
import Verif.Props.C53C
import Verif.Props.C53D
import Verif.Props.C54
import Verif.Props.C54B
import Verif.Props.C54C
import Verif.Props.C55
import Verif.Props.C55B
import Verif.Props.C56
import Verif.Props.C58
import Verif.Props.C59
import Verif.Props.C59B
import Verif.Props.C59C
import Verif.Props.C60
import Verif.Props.C61
import Verif.Props.C62
import Verif.Props.C62B
import Verif.Props.C63
import Verif.Props.C63B
import Verif.Props.C63C
import Verif.Props.C63D
import Verif.Props.C64
import Verif.Props.C65
import Verif.Props.C66
import Verif.Props.C66M
import Verif.Props.C67
import Verif.Props.C68
import Verif.Props.C69
import Verif.Props.C70
import Verif.Props.C71
import Verif.Props.C72
import Verif.Props.C73
import Verif.Spec.Cdf
import Verif.Spec.Combine
import Verif.Spec.Conj
import Verif.Spec.Cross
import Verif.Spec.Defined
import Verif.Spec.Densities
import Verif.Spec.Entropy
import Verif.Spec.Grid
import Verif.Spec.Hazard
import Verif.Spec.Hier
import Verif.Spec.Joint
import Verif.Spec.Law
import Verif.Spec.Limit
import Verif.Spec.Lr
import Verif.Spec.Mix
import Verif.Spec.Mle
import Verif.Spec.Mode
import Verif.Spec.Moment
import Verif.Spec.MonoInv
import Verif.Spec.Mult
import Verif.Spec.Multi
import Verif.Spec.OddLib
import Verif.Spec.Order
import Verif.Spec.Params
import Verif.Spec.Point
import Verif.Spec.Project
import Verif.Spec.Quant
import Verif.Spec.Round
import Verif.Spec.Sample
import Verif.Spec.Scale
import Verif.Spec.Special
import Verif.Spec.Support
import Verif.Spec.Sym
import Verif.Spec.Symm
import Verif.Spec.Test
import Verif.Spec.Types
import Verif.Spec.Work
