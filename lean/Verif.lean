import Verif.Py
import Verif.NumPy
import Verif.Scalar
import Verif.NDArray
import Verif.Model.Defaults
import Verif.Model.Demod
import Verif.Model.Stack
import Verif.Model.Fdm
import Verif.Model.Pdm
import Verif.Model.Inversion
import Verif.Model.SampleObj
import Verif.Model.Cache
import Verif.Model.Session
import Verif.Props.Vectorised
import Verif.Props.Quasistatic
import Verif.Props.FarField
import Verif.Props.FarPassive
import Verif.Props.Demod
import Verif.Props.Image
import Verif.Props.Convergence
import Verif.Props.Perm
import Verif.Props.Pdm
import Verif.Props.Fdm
import Verif.Props.Taylor
import Verif.Props.Inversion
import Verif.Props.SampleObj
import Verif.Props.Whole
import Verif.Props.Cache
import Verif.Props.Defaults
import Verif.Props.Passivity
import Verif.Props.Monotone
import Verif.Props.InversionLimit
import Verif.Lemmas.Conj
import Verif.Props.Conj
import Verif.Props.TaylorLayered
import Verif.Lemmas.AltSeries
import Verif.Props.Harmonics
import Verif.Model.Version
import Verif.Spec.Git
import Verif.Lemmas.Version
import Verif.Props.Version
import Verif.Props.VersionStyles
import Verif.Props.VersionKeywords
import Verif.Props.VersionGet
import Verif.Props.VersionFiles
import Verif.Double
import Verif.Spec.Rounding
import Verif.Lemmas.Double
import Verif.Lemmas.DoubleExp
import Verif.Lemmas.DoubleMat
import Verif.Lemmas.DoubleStack
import Verif.Lemmas.DoubleArith
import Verif.Lemmas.DoubleCplx
import Verif.Lemmas.DoubleLayer
import Verif.Lemmas.DoubleOverflow
import Verif.Lemmas.DoubleAccuracy
import Verif.Lemmas.DoubleThick
import Verif.Lemmas.DoubleNan
import Verif.Props.Overflow
import Verif.Props.Rounding
import Verif.Spec.Bounces
import Verif.Lemmas.FarClassic
import Verif.Props.FarClassic
import Verif.Props.Spectra
import Verif.Model.Memory
import Verif.Spec.Memory
import Verif.Lemmas.Memory
import Verif.Props.Memory
import Verif.Spec.Ellipse
import Verif.Lemmas.Strip
import Verif.Props.DemodRate
import Verif.Props.TaylorError
import Verif.Props.BulkSample
import Verif.Spec.Condition
import Verif.Lemmas.DoubleNear
import Verif.Lemmas.DoublePdm
import Verif.Lemmas.DoubleDemod
import Verif.Lemmas.DoublePol
import Verif.Props.DoublePol
import Verif.Lemmas.DoubleFdm
import Verif.Lemmas.DoubleFdmPol
import Verif.Props.DoubleFdm
import Verif.Props.DemodFdm
import Verif.Props.Approach
import Verif.Props.Release
import Verif.Props.Recover
import Verif.Props.DoubleTrip
import Verif.Props.DoubleInverse
import Verif.Model.Counts
import Verif.Props.Counts
import Verif.Model.Install
import Verif.Spec.Install
import Verif.Lemmas.Install
import Verif.Lemmas.InstallSteps
import Verif.Lemmas.InstallIni
import Verif.Props.Install
import Verif.Lemmas.Identify
import Verif.Props.Identify
import Verif.Model.Examples
import Verif.Spec.Examples
import Verif.Lemmas.Examples
import Verif.Props.Examples
import Verif.Props.ApproachCurve
import Verif.Spec.Synthesis
import Verif.Lemmas.Synthesis
import Verif.Props.Synthesis
import Verif.Props.Resonance
import Verif.Model.ExampleSpectra
import Verif.Props.ExampleSpectra
import Verif.Lemmas.MeanHarmonic
import Verif.Props.MeanHarmonic
import Verif.Spec.Images
import Verif.Lemmas.ImageSeries
import Verif.Props.Images
import Verif.Model.Commands
import Verif.Spec.Commands
import Verif.Lemmas.Commands
import Verif.Props.Commands
import Verif.Spec.Signs
import Verif.Lemmas.DoublePerm
import Verif.Lemmas.DoubleSigns
import Verif.Props.DoublePerm
import Verif.Spec.Oscillator
import Verif.Lemmas.Oscillator
import Verif.Props.Oscillator
import Verif.Props.TipSignal
import Verif.Props.ThinFilm
import Verif.Spec.Fields
import Verif.Lemmas.Fields
import Verif.Props.Fields
import Verif.Spec.Electrostatics
import Verif.Lemmas.Electrostatics
import Verif.Props.Electrostatics
import Verif.Props.DocExamples
import Verif.Lemmas.DoubleFar
import Verif.Props.DoubleFar
import Verif.Spec.Graded
import Verif.Lemmas.Graded
import Verif.Props.Graded
import Verif.Spec.Continuity
import Verif.Lemmas.Continuity
import Verif.Props.Continuity
import Verif.Ints
import Verif.Spec.Ints
import Verif.Lemmas.Ints
import Verif.Props.Ints
import Verif.Signed
import Verif.Spec.Signed
import Verif.Model.OfBeta
import Verif.Lemmas.Signed
import Verif.Lemmas.SignedFar
import Verif.Props.Signed
import Verif.Spec.Analytic
import Verif.Lemmas.Analytic
import Verif.Lemmas.AnalyticTip
import Verif.Props.Analytic
import Verif.Spec.Unique
import Verif.Lemmas.Unique
import Verif.Props.Unique
import Verif.Props.AnalyticSpectra
import Verif.Lemmas.ApproachLayers
import Verif.Props.ApproachLayers
import Verif.Props.Parameters
import Verif.Spec.Average
import Verif.Lemmas.LaguerreNodes
import Verif.Lemmas.DoubleAverage
import Verif.Lemmas.DoubleQave
import Verif.Props.DoubleAverage
import Verif.Props.LaguerreRule
import Verif.Lemmas.RealAnalytic
import Verif.Lemmas.AnalyticHeight
import Verif.Lemmas.Denser
import Verif.Props.DemodLayers
import Verif.Props.Denser
import Verif.Lemmas.Raised
import Verif.Props.Raised
import Verif.Lemmas.Thinner
import Verif.Props.Thinner
import Verif.Spec.Shaped
import Verif.Props.Shapes
