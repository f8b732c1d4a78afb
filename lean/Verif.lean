import Verif.Lemmas.Admm
import Verif.Lemmas.AtomHeap
import Verif.Lemmas.Block
import Verif.Lemmas.Cone
import Verif.Lemmas.Cox
import Verif.Lemmas.DualProblem
import Verif.Lemmas.EnetPath
import Verif.Lemmas.Fista
import Verif.Lemmas.FistaCongr
import Verif.Lemmas.FistaRegion
import Verif.Lemmas.Gauge
import Verif.Lemmas.GlmFrame
import Verif.Lemmas.GlmHeap
import Verif.Lemmas.Group
import Verif.Lemmas.GroupPath
import Verif.Lemmas.Hinge
import Verif.Lemmas.Hoeffding
import Verif.Lemmas.Isotonic
import Verif.Lemmas.L2
import Verif.Lemmas.LabelPenalty
import Verif.Lemmas.LassoObj
import Verif.Lemmas.LassoPath
import Verif.Lemmas.Losses
import Verif.Lemmas.Lsq
import Verif.Lemmas.MixedKKT
import Verif.Lemmas.MixedLasso
import Verif.Lemmas.MixedObj
import Verif.Lemmas.Multi
import Verif.Lemmas.Normal
import Verif.Lemmas.PiecewiseLinear
import Verif.Lemmas.PowerSvd
import Verif.Lemmas.Prox
import Verif.Lemmas.ProxGrad
import Verif.Lemmas.Quad
import Verif.Lemmas.Regression
import Verif.Lemmas.Saddle
import Verif.Lemmas.ScalarExtension
import Verif.Lemmas.Separable
import Verif.Lemmas.Slope
import Verif.Lemmas.Smooth
import Verif.Lemmas.Smoothed
import Verif.Lemmas.SoftThr
import Verif.Lemmas.SolveFrame
import Verif.Lemmas.SolveHeap
import Verif.Lemmas.SparseGroupPath
import Verif.Lemmas.Stopping
import Verif.Lemmas.StrongRules
import Verif.Lemmas.Svd
import Verif.Lemmas.SvdExists
import Verif.Lemmas.Threads
import Verif.Lemmas.TrendFilter
import Verif.Model.Admm
import Verif.Model.Affine
import Verif.Model.Affine2d
import Verif.Model.AffineAtom
import Verif.Model.AffineCone
import Verif.Model.AnyLoss
import Verif.Model.AtomHeap
import Verif.Model.AtomMode
import Verif.Model.AtomProximal
import Verif.Model.AtomRegression
import Verif.Model.Basil
import Verif.Model.BinaryLinks
import Verif.Model.BinaryRegression
import Verif.Model.BlockMaps
import Verif.Model.BlockNorms
import Verif.Model.Buffers
import Verif.Model.CheckSubgradient
import Verif.Model.ConeContainer
import Verif.Model.Cones
import Verif.Model.Conjugate
import Verif.Model.ConjugateClass
import Verif.Model.Container
import Verif.Model.ContainerFista
import Verif.Model.Cox
import Verif.Model.CrossValidate
import Verif.Model.DualAtoms
import Verif.Model.DualProblem
import Verif.Model.EpiCone
import Verif.Model.Equality
import Verif.Model.Estimators
import Verif.Model.Fista
import Verif.Model.Gauge
import Verif.Model.GlmHeap
import Verif.Model.GroupPath
import Verif.Model.HuberizedSvm
import Verif.Model.IdentityQuadratic
import Verif.Model.Image2d
import Verif.Model.Isotonic
import Verif.Model.L2Norm
import Verif.Model.LassoObj
import Verif.Model.LassoPath
import Verif.Model.LinearConstraints
import Verif.Model.LossHeap
import Verif.Model.Losses
import Verif.Model.MixedKKT
import Verif.Model.MixedLasso
import Verif.Model.MixedObj
import Verif.Model.MixedPath
import Verif.Model.MultiRegression
import Verif.Model.Multinomial
import Verif.Model.Multiscale
import Verif.Model.Nesta
import Verif.Model.NewtonRun
import Verif.Model.PartialSvd
import Verif.Model.Paths
import Verif.Model.PenaltySequence
import Verif.Model.PiecewiseLinear
import Verif.Model.PowerL
import Verif.Model.PowerSvd
import Verif.Model.ProblemFactories
import Verif.Model.Projl1
import Verif.Model.QuadraticLoss
import Verif.Model.QuasiNewton
import Verif.Model.Regression
import Verif.Model.Scores
import Verif.Model.ScoresMulti
import Verif.Model.Seminorms
import Verif.Model.Separable
import Verif.Model.SeparableObj
import Verif.Model.SimpleSolvers
import Verif.Model.Simplex
import Verif.Model.Sklearn
import Verif.Model.Slope
import Verif.Model.Smooth
import Verif.Model.Smoothed
import Verif.Model.Smuce
import Verif.Model.SolveHeap
import Verif.Model.SparseGroupPath
import Verif.Model.StackedFactories
import Verif.Model.StackedLoglike
import Verif.Model.StrongRules
import Verif.Model.SvdNorms
import Verif.Model.Threads
import Verif.Model.TrendFilter
import Verif.Model.WarmStart
import Verif.Model.Weighted
import Verif.Props.C01_PiecewiseLinear
import Verif.Props.C02_Seminorms
import Verif.Props.C04_Epigraph
import Verif.Props.C06_L2
import Verif.Props.C08_Dual
import Verif.Props.C09_Moreau
import Verif.Props.C100_AnyLoss
import Verif.Props.C100_Losses
import Verif.Props.C101_Cones
import Verif.Props.C102_Tuning
import Verif.Props.C103_EpiCones
import Verif.Props.C104_MatrixAtoms
import Verif.Props.C104_Multi
import Verif.Props.C105_Factories
import Verif.Props.C106_DualAtoms
import Verif.Props.C107_ProblemFactories
import Verif.Props.C108_BoundedRegression
import Verif.Props.C108_Regressions
import Verif.Props.C109_Multinomial
import Verif.Props.C10_Proximal
import Verif.Props.C110_PartialSvd
import Verif.Props.C111_Certified
import Verif.Props.C111_Ridge
import Verif.Props.C112_FusedLasso
import Verif.Props.C113_Smoothing
import Verif.Props.C114_NearlyIsotonic
import Verif.Props.C115_MatrixArguments
import Verif.Props.C116_ConstraintInContainer
import Verif.Props.C117_ContainerAccuracy
import Verif.Props.C117_IsotonicAccuracy
import Verif.Props.C11_Feasible
import Verif.Props.C12_Mode
import Verif.Props.C13_Conjugate
import Verif.Props.C14_Quadratic
import Verif.Props.C16_Cones
import Verif.Props.C18_Simplex
import Verif.Props.C19_Isotonic
import Verif.Props.C20_Slope
import Verif.Props.C21_Group
import Verif.Props.C21_Labels
import Verif.Props.C22_SparseGroup
import Verif.Props.C23_Weighted
import Verif.Props.C24_Affine
import Verif.Props.C26_Smooth
import Verif.Props.C28_Gradients
import Verif.Props.C28_Multi
import Verif.Props.C29_Convex
import Verif.Props.C30_Hessian
import Verif.Props.C31_Purity
import Verif.Props.C32_CopySubsample
import Verif.Props.C33_Fista
import Verif.Props.C34_ProxGradient
import Verif.Props.C35_Stopping
import Verif.Props.C37_Separable
import Verif.Props.C38_QuasiNewton
import Verif.Props.C39_LassoKKT
import Verif.Props.C40_StrongRules
import Verif.Props.C41_Basil
import Verif.Props.C42_Folds
import Verif.Props.C43_LagrangeSequence
import Verif.Props.C44_TrendFilter
import Verif.Props.C45_Multiscale
import Verif.Props.C46_Image2d
import Verif.Props.C47_Normalize
import Verif.Props.C48_Smoothed
import Verif.Props.C49_Sklearn
import Verif.Props.C50_Gauge
import Verif.Props.C51_Cox
import Verif.Props.C52_PowerL
import Verif.Props.C53_Buffers
import Verif.Props.C55_GroupCones
import Verif.Props.C56_MixedLasso
import Verif.Props.C57_Block
import Verif.Props.C58_SparseBlock
import Verif.Props.C59_Svd
import Verif.Props.C60_SvdCones
import Verif.Props.C61_LinearConstraints
import Verif.Props.C62_Gengrad
import Verif.Props.C63_Nesta
import Verif.Props.C64_Admm
import Verif.Props.C65_BlockMaps
import Verif.Props.C66_PartialSvd
import Verif.Props.C67_AffineAtom
import Verif.Props.C68_DualProblem
import Verif.Props.C69_Container
import Verif.Props.C70_ConjugateClass
import Verif.Props.C71_SmoothConjugate
import Verif.Props.C72_BinaryLinks
import Verif.Props.C73_Deviance
import Verif.Props.C74_GroupPath
import Verif.Props.C75_SparseGroupPath
import Verif.Props.C77_StackedLoglike
import Verif.Props.C78_WarmStart
import Verif.Props.C79_QuadraticLoss
import Verif.Props.C80_NewtonRun
import Verif.Props.C81_MixedKKT
import Verif.Props.C82_MixedPath
import Verif.Props.C83_Scores
import Verif.Props.C84_Fit
import Verif.Props.C85_CheckSubgradient
import Verif.Props.C86_HuberizedSvm
import Verif.Props.C87_ScoresMulti
import Verif.Props.C88_Regression
import Verif.Props.C89_Smuce
import Verif.Props.C90_AnyAtom
import Verif.Props.C90_Atoms
import Verif.Props.C91_SeparableObj
import Verif.Props.C92_AtomHeap
import Verif.Props.C93_MixedConj
import Verif.Props.C93_MixedObj
import Verif.Props.C94_CrossValidate
import Verif.Props.C94_Leak
import Verif.Props.C94_Scores
import Verif.Props.C95_Threads
import Verif.Props.C96_Regression
import Verif.Props.C96_Stopping
import Verif.Props.C96_TolLimit
import Verif.Props.C97_Equality
import Verif.Props.C98_GlmObjects
import Verif.Props.C99_Solutions
import Verif.Spec.Admm
import Verif.Spec.AtomValues
import Verif.Spec.Block
import Verif.Spec.Composite
import Verif.Spec.Cox
import Verif.Spec.Dual
import Verif.Spec.Dualised
import Verif.Spec.Gauge
import Verif.Spec.GlmValues
import Verif.Spec.Groups
import Verif.Spec.LabelPenalty
import Verif.Spec.LassoPath
import Verif.Spec.Linear
import Verif.Spec.Links
import Verif.Spec.Losses
import Verif.Spec.Matrix
import Verif.Spec.Multi
import Verif.Spec.Opt
import Verif.Spec.QrFactor
import Verif.Spec.Saddle
import Verif.Spec.Scores
import Verif.Spec.Separable
import Verif.Spec.Sklearn
import Verif.Spec.Smooth
import Verif.Spec.Smoothed
import Verif.Spec.SolveValues
import Verif.Spec.Stacked
import Verif.Spec.Subspace
import Verif.Spec.Svd
import Verif.Spec.Weights
