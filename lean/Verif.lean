import Verif.Lemmas.AxisGrowth
import Verif.Lemmas.CalcCore
import Verif.Lemmas.CalcVariants
import Verif.Lemmas.ConjGrad
import Verif.Lemmas.Converge
import Verif.Lemmas.EllStable
import Verif.Lemmas.EllUpdate
import Verif.Lemmas.EllipsoidGeom
import Verif.Lemmas.Ldlt
import Verif.Lemmas.Loops
import Verif.Lemmas.Lowpass
import Verif.Lemmas.MinVolume
import Verif.Lemmas.ParBounds
import Verif.Lemmas.Power
import Verif.Lemmas.Profit
import Verif.Lemmas.Ranges
import Verif.Lemmas.Rel
import Verif.Lemmas.Rename
import Verif.Lemmas.RoundMono
import Verif.Lemmas.RoundedConverge
import Verif.Lemmas.RoundedGeom
import Verif.Lemmas.RoundedLdlt
import Verif.Lemmas.RoundedLowpass
import Verif.Lemmas.RoundedLowpassCuts
import Verif.Lemmas.RoundedLowpassOracle
import Verif.Lemmas.RoundedPair
import Verif.Lemmas.RoundedPairConverge
import Verif.Lemmas.RoundedParallel
import Verif.Lemmas.RoundedParams
import Verif.Lemmas.RoundedProfit
import Verif.Lemmas.RoundedProfitCut
import Verif.Lemmas.RoundedProfitReport
import Verif.Lemmas.RoundedSpectrum
import Verif.Lemmas.RoundedStable
import Verif.Lemmas.Rounding
import Verif.Lemmas.Scaling
import Verif.Lemmas.SigmaZero
import Verif.Lemmas.Simulation
import Verif.Lemmas.Spectral
import Verif.Lemmas.Volume
import Verif.Lemmas.Weak
import Verif.Model.Basic
import Verif.Model.ConjGrad
import Verif.Model.CuttingPlane
import Verif.Model.Ell
import Verif.Model.Ell1d
import Verif.Model.EllCalc
import Verif.Model.EllCalcCore
import Verif.Model.EllCalcTpy
import Verif.Model.EllSpace
import Verif.Model.EllStable
import Verif.Model.EllStableSpace
import Verif.Model.Heap
import Verif.Model.Ldlt
import Verif.Model.Lmi
import Verif.Model.Lmi2
import Verif.Model.Loops
import Verif.Model.Lowpass
import Verif.Model.PowerIteration
import Verif.Model.Profit
import Verif.Model.Rounded
import Verif.Model.RoundedCGTrace
import Verif.Model.RoundedConjGrad
import Verif.Model.RoundedEll1d
import Verif.Model.RoundedLdlt
import Verif.Model.RoundedLmi
import Verif.Model.RoundedLowpass
import Verif.Model.RoundedPower
import Verif.Model.RoundedPower2
import Verif.Model.RoundedPower3
import Verif.Model.RoundedPower4
import Verif.Model.RoundedProfit
import Verif.Model.RoundedStable
import Verif.Model.Skeleton
import Verif.Model.SpectralFact
import Verif.Props.Accuracy
import Verif.Props.Affine
import Verif.Props.BSearch
import Verif.Props.BSearchEll
import Verif.Props.ConjGrad
import Verif.Props.Containment
import Verif.Props.Convergence
import Verif.Props.Ell1d
import Verif.Props.EllCalcTpy
import Verif.Props.EllHistory
import Verif.Props.EllStable
import Verif.Props.EllState
import Verif.Props.Formulas
import Verif.Props.Heap
import Verif.Props.Ldlt
import Verif.Props.LebesgueVolume
import Verif.Props.Lmi
import Verif.Props.Lmi2
import Verif.Props.LmiConverge
import Verif.Props.Loops
import Verif.Props.Lowpass
import Verif.Props.MinVolume
import Verif.Props.Monotone
import Verif.Props.Power
import Verif.Props.PowerConverge
import Verif.Props.PowerIndefinite
import Verif.Props.PowerScale
import Verif.Props.PowerStalls
import Verif.Props.Profit
import Verif.Props.ProfitLoop
import Verif.Props.Rounded
import Verif.Props.RoundedBSearch
import Verif.Props.RoundedCholesky
import Verif.Props.RoundedContainment
import Verif.Props.RoundedConverge
import Verif.Props.RoundedEll1d
import Verif.Props.RoundedEll1dRate
import Verif.Props.RoundedIntBSearch
import Verif.Props.RoundedLdlt
import Verif.Props.RoundedLmi
import Verif.Props.RoundedLowpassDesign
import Verif.Props.RoundedNear
import Verif.Props.RoundedPairConverge
import Verif.Props.RoundedParallel
import Verif.Props.RoundedPower
import Verif.Props.RoundedPower2
import Verif.Props.RoundedPower3
import Verif.Props.RoundedPower4
import Verif.Props.RoundedPowerRuns
import Verif.Props.RoundedProfit
import Verif.Props.RoundedProfitHonest
import Verif.Props.RoundedProfitRb
import Verif.Props.RoundedResidual
import Verif.Props.RoundedRun
import Verif.Props.RoundedScale
import Verif.Props.RoundedScaleRun
import Verif.Props.RoundedScaleStable
import Verif.Props.RoundedStable
import Verif.Props.Semidefinite
import Verif.Props.ShallowParallel
import Verif.Props.Skeleton
import Verif.Props.Soundness
import Verif.Props.SoundnessQ
import Verif.Props.SourceBSearch
import Verif.Props.SourceCalcTpy
import Verif.Props.SourceConjGrad
import Verif.Props.SourceConverge
import Verif.Props.SourceEll
import Verif.Props.SourceEll1d
import Verif.Props.SourceHonest
import Verif.Props.SourceLdlt
import Verif.Props.SourceLmi
import Verif.Props.SourceLowpass
import Verif.Props.SourcePairConverge
import Verif.Props.SourcePower
import Verif.Props.SourceProfit
import Verif.Props.SourceRoundedBSearch
import Verif.Props.SourceRoundedEll1d
import Verif.Props.SourceRoundedProfit
import Verif.Props.SourceRoundedProfitHonest
import Verif.Props.SourceRoundedProfitRb
import Verif.Props.SourceRuns
import Verif.Props.SourceSpectral
import Verif.Props.SourceStable
import Verif.Props.Spectral
import Verif.Props.StableBSearch
import Verif.Props.StableFlag
import Verif.Props.StableLoops
import Verif.Props.Tolerance
import Verif.Props.Volume
import Verif.Py.Arrays
import Verif.Py.Attr
import Verif.Py.Exec
import Verif.Py.Index
import Verif.Py.Lists
import Verif.Py.Parser
import Verif.Py.Program
import Verif.Py.Refine.Adaptor
import Verif.Py.Refine.AdaptorStable
import Verif.Py.Refine.ConjGrad
import Verif.Py.Refine.CuttingPlane
import Verif.Py.Refine.Ell
import Verif.Py.Refine.Ell1d
import Verif.Py.Refine.EllCalc
import Verif.Py.Refine.EllCalcCore
import Verif.Py.Refine.EllCalcTpy
import Verif.Py.Refine.EllStable
import Verif.Py.Refine.LdltMgr
import Verif.Py.Refine.LdltWit
import Verif.Py.Refine.Lmi
import Verif.Py.Refine.Lowpass
import Verif.Py.Refine.Power
import Verif.Py.Refine.Profit
import Verif.Py.Refine.ProfitQ
import Verif.Py.Refine.ProfitRb
import Verif.Py.Refine.RoundedEll1d
import Verif.Py.Refine.Runs
import Verif.Py.Refine.Skeleton
import Verif.Py.Refine.Spectral
import Verif.Py.Refine.StableLoops
import Verif.Py.Refine.User
import Verif.Py.Semantics
import Verif.Py.Source.ConjugateGradient
import Verif.Py.Source.CuttingPlane
import Verif.Py.Source.Ell
import Verif.Py.Source.Ell1dTpy
import Verif.Py.Source.EllCalc
import Verif.Py.Source.EllCalcCore
import Verif.Py.Source.EllCalcTpy
import Verif.Py.Source.EllConfig
import Verif.Py.Source.EllStable
import Verif.Py.Source.LdltMgr
import Verif.Py.Source.Lmi0Oracle
import Verif.Py.Source.LmiOldOracle
import Verif.Py.Source.LmiOracle
import Verif.Py.Source.LowpassOracle
import Verif.Py.Source.PowerIteration
import Verif.Py.Source.ProfitOracle
import Verif.Py.Source.Skeleton
import Verif.Py.Source.SpectralFact
import Verif.Py.Syntax
import Verif.Spec.ConjGrad
import Verif.Spec.Convex
import Verif.Spec.Cut
import Verif.Spec.Ellipsoid
import Verif.Spec.Factored
import Verif.Spec.History
import Verif.Spec.Loops
import Verif.Spec.Lowpass
import Verif.Spec.Oracle
import Verif.Spec.Power
import Verif.Spec.Profit
import Verif.Spec.Quad
import Verif.Spec.RoundedBSearch
import Verif.Spec.RoundedCholesky
import Verif.Spec.RoundedConverge
import Verif.Spec.RoundedEll1d
import Verif.Spec.RoundedHonest
import Verif.Spec.RoundedLowpass
import Verif.Spec.RoundedNear
import Verif.Spec.RoundedPairConverge
import Verif.Spec.RoundedPower
import Verif.Spec.RoundedProfit
import Verif.Spec.RoundedProfitQ
import Verif.Spec.RoundedProfitRb
import Verif.Spec.RoundedResidual
import Verif.Spec.RoundedRun
import Verif.Spec.RoundedStable
import Verif.Spec.Rounding
import Verif.Spec.Spectral
