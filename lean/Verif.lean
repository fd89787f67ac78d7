import Verif.Lemmas.Accuracy
import Verif.Lemmas.AccuracyMean
import Verif.Lemmas.Admm
import Verif.Lemmas.AdmmCoord
import Verif.Lemmas.AdmmCycle
import Verif.Lemmas.AdmmForever
import Verif.Lemmas.AdmmLinear
import Verif.Lemmas.AdmmLyapunov
import Verif.Lemmas.AdmmOrth
import Verif.Lemmas.AdmmTurn
import Verif.Lemmas.AdmmWalk
import Verif.Lemmas.Binary
import Verif.Lemmas.BinaryEval
import Verif.Lemmas.BinaryGolden
import Verif.Lemmas.ChiSquare
import Verif.Lemmas.Cochran
import Verif.Lemmas.Concave
import Verif.Lemmas.Congr
import Verif.Lemmas.Data
import Verif.Lemmas.DropOne
import Verif.Lemmas.Existence
import Verif.Lemmas.External
import Verif.Lemmas.Family
import Verif.Lemmas.FamilyCalc
import Verif.Lemmas.FamilyDeriv
import Verif.Lemmas.Fitted
import Verif.Lemmas.Flip
import Verif.Lemmas.FlipFit
import Verif.Lemmas.Ieee
import Verif.Lemmas.IeeeSame
import Verif.Lemmas.IrlsControl
import Verif.Lemmas.LeastSquares
import Verif.Lemmas.LikeAccuracy
import Verif.Lemmas.Local
import Verif.Lemmas.Newton
import Verif.Lemmas.OneStep
import Verif.Lemmas.Quad
import Verif.Lemmas.Quantile
import Verif.Lemmas.Real
import Verif.Lemmas.RealDists
import Verif.Lemmas.Regression
import Verif.Lemmas.Relabel
import Verif.Lemmas.RelabelFit
import Verif.Lemmas.ResponseLaw
import Verif.Lemmas.Reweight
import Verif.Lemmas.Saturation
import Verif.Lemmas.Seq
import Verif.Lemmas.Stats
import Verif.Lemmas.Strict
import Verif.Lemmas.StrictBuild
import Verif.Lemmas.StrictFit
import Verif.Lemmas.Sum
import Verif.Lemmas.Trace
import Verif.Lemmas.Twin
import Verif.Lemmas.Witness
import Verif.Model.Array
import Verif.Model.Build
import Verif.Model.Cache
import Verif.Model.Custom
import Verif.Model.Data
import Verif.Model.Dist
import Verif.Model.Env
import Verif.Model.Fit
import Verif.Model.Glm
import Verif.Model.Irls
import Verif.Model.Link
import Verif.Model.Refit
import Verif.Model.Regularization
import Verif.Model.Response
import Verif.Model.Scalar
import Verif.Props.AdmmLinear
import Verif.Props.Ascent
import Verif.Props.Averages
import Verif.Props.Build
import Verif.Props.Cache
import Verif.Props.Calibration
import Verif.Props.Cells
import Verif.Props.Certificate
import Verif.Props.CertificateF64
import Verif.Props.Coding
import Verif.Props.Compare
import Verif.Props.ComputedScale
import Verif.Props.Convergence
import Verif.Props.Custom
import Verif.Props.Defined
import Verif.Props.DefinedStats
import Verif.Props.Deviance
import Verif.Props.DevianceAccuracy
import Verif.Props.DevianceExample
import Verif.Props.DevianceFits
import Verif.Props.DevianceModerate
import Verif.Props.Domain
import Verif.Props.DropOne
import Verif.Props.Effects
import Verif.Props.ExactWald
import Verif.Props.Existence
import Verif.Props.ExistenceL1
import Verif.Props.ExistenceReciprocal
import Verif.Props.Exposure
import Verif.Props.External
import Verif.Props.Families
import Verif.Props.Features
import Verif.Props.FeaturesExact
import Verif.Props.GaussMarkov
import Verif.Props.Gradient
import Verif.Props.Hat
import Verif.Props.Indicator
import Verif.Props.Inexact
import Verif.Props.InexactInverse
import Verif.Props.InexactStop
import Verif.Props.Influence
import Verif.Props.InfoAccuracy
import Verif.Props.InfoExample
import Verif.Props.InfoModerate
import Verif.Props.InterceptColumn
import Verif.Props.Iteration
import Verif.Props.L1Cycle
import Verif.Props.L1Stop
import Verif.Props.L1Uncorrelated
import Verif.Props.Lasso
import Verif.Props.LeastSquares
import Verif.Props.LikeAccuracy
import Verif.Props.LikeAccuracyF64
import Verif.Props.LocalConvergence
import Verif.Props.LocalFamilies
import Verif.Props.Newton
import Verif.Props.Normal
import Verif.Props.NormalOmnibus
import Verif.Props.Omnibus
import Verif.Props.OneFeature
import Verif.Props.Optimum
import Verif.Props.Options
import Verif.Props.Order
import Verif.Props.PValues
import Verif.Props.Partial
import Verif.Props.PartialResiduals
import Verif.Props.Penalty
import Verif.Props.Pivot
import Verif.Props.Recount
import Verif.Props.Response
import Verif.Props.ResponseUnits
import Verif.Props.Ridge
import Verif.Props.RidgeLinear
import Verif.Props.Rounding
import Verif.Props.RoundingAccuracy
import Verif.Props.RoundingFit
import Verif.Props.RoundingLike
import Verif.Props.RoundingLimits
import Verif.Props.RoundingSearch
import Verif.Props.Sampling
import Verif.Props.ScaleAccuracy
import Verif.Props.ScaleModerate
import Verif.Props.ScoreAccuracy
import Verif.Props.Selection
import Verif.Props.SharedLikelihood
import Verif.Props.Signs
import Verif.Props.Stability
import Verif.Props.StandardAccuracy
import Verif.Props.StandardF64
import Verif.Props.StandardScore
import Verif.Props.Standardize
import Verif.Props.Start
import Verif.Props.Student
import Verif.Props.Symmetry
import Verif.Props.Tests
import Verif.Props.TwoArms
import Verif.Props.UnitDeviance
import Verif.Props.Units
import Verif.Props.VarWeights
import Verif.Props.WeightUnits
import Verif.Props.Weights
import Verif.Spec.Accuracy
import Verif.Spec.Admm
import Verif.Spec.Averages
import Verif.Spec.Build
import Verif.Spec.Cells
import Verif.Spec.Coding
import Verif.Spec.Compare
import Verif.Spec.Custom
import Verif.Spec.Data
import Verif.Spec.Deviance
import Verif.Spec.DevianceAccuracy
import Verif.Spec.Dists
import Verif.Spec.DropOne
import Verif.Spec.Effects
import Verif.Spec.Exact
import Verif.Spec.Existence
import Verif.Spec.Exposure
import Verif.Spec.Family
import Verif.Spec.Features
import Verif.Spec.Glm
import Verif.Spec.Ieee
import Verif.Spec.Indicator
import Verif.Spec.Inexact
import Verif.Spec.InexactInverse
import Verif.Spec.InfoAccuracy
import Verif.Spec.InfoF64
import Verif.Spec.LeastSquares
import Verif.Spec.LikeAccuracy
import Verif.Spec.Local
import Verif.Spec.Normal
import Verif.Spec.OneFeature
import Verif.Spec.Order
import Verif.Spec.Partial
import Verif.Spec.Penalty
import Verif.Spec.Proportions
import Verif.Spec.RealDists
import Verif.Spec.Recount
import Verif.Spec.Response
import Verif.Spec.ResponseUnits
import Verif.Spec.Rounding
import Verif.Spec.SameModel
import Verif.Spec.Sampling
import Verif.Spec.ScaleAccuracy
import Verif.Spec.ScoreAccuracy
import Verif.Spec.Signs
import Verif.Spec.Stability
import Verif.Spec.StandardAccuracy
import Verif.Spec.Start
import Verif.Spec.Stats
import Verif.Spec.Strict
import Verif.Spec.TwoArms
import Verif.Spec.Units
import Verif.Spec.WeightUnits
import Verif.Spec.Weights
