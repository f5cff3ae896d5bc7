import Verif.F32.Basic
import Verif.F32.Extra
import Verif.F32.More
import Verif.F32.Ops
import Verif.F32.Round
import Verif.F32.Scale
import Verif.Lemmas.Blend
import Verif.Lemmas.Delay
import Verif.Lemmas.Envelope
import Verif.Lemmas.Lagrange
import Verif.Lemmas.Lerp
import Verif.Lemmas.Near
import Verif.Lemmas.Si
import Verif.Lemmas.SinBounds
import Verif.Lemmas.SinPoly
import Verif.Lemmas.SinReduce
import Verif.Lemmas.SineIntegral
import Verif.Lemmas.Slice
import Verif.Lemmas.Trace
import Verif.Model.Base
import Verif.Model.Biquad
import Verif.Model.BlRectTable
import Verif.Model.Buffers
import Verif.Model.Conversion
import Verif.Model.DelayLine
import Verif.Model.Envelope
import Verif.Model.FixedPoint
import Verif.Model.Interpolation
import Verif.Model.Level
import Verif.Model.Math
import Verif.Model.MemorySlice
import Verif.Model.Oscillator
import Verif.Props.AnyOrder
import Verif.Props.BassBoost
import Verif.Props.BassFloat
import Verif.Props.Biquad
import Verif.Props.BiquadFloat
import Verif.Props.BiquadStable
import Verif.Props.BitDepths
import Verif.Props.BitReduceFull
import Verif.Props.BlRect
import Verif.Props.BlRectSi
import Verif.Props.Builds
import Verif.Props.Butterworth
import Verif.Props.Cascade
import Verif.Props.Checked
import Verif.Props.Clear
import Verif.Props.Clicks
import Verif.Props.CombAllPass
import Verif.Props.CombFloat
import Verif.Props.CombLinear
import Verif.Props.CombOrder
import Verif.Props.CombPartials
import Verif.Props.CombResponse
import Verif.Props.CombSettings
import Verif.Props.CombTone
import Verif.Props.Converge
import Verif.Props.Conversion
import Verif.Props.Crossfade
import Verif.Props.Cutoff
import Verif.Props.DecibelFloat
import Verif.Props.Delay
import Verif.Props.DelayEscape
import Verif.Props.DelayLagrange
import Verif.Props.DelaySignal
import Verif.Props.DesignFloat
import Verif.Props.DesignGain
import Verif.Props.DesignResponse
import Verif.Props.DesignRun
import Verif.Props.Drift
import Verif.Props.Echo
import Verif.Props.Energy
import Verif.Props.EnergyDelay
import Verif.Props.Envelope
import Verif.Props.EnvelopeAny
import Verif.Props.EnvelopeCurve
import Verif.Props.EnvelopeLonger
import Verif.Props.EnvelopeStep
import Verif.Props.FixedSin
import Verif.Props.Flanger
import Verif.Props.FloatMath
import Verif.Props.Folding
import Verif.Props.Forget
import Verif.Props.Fractional
import Verif.Props.Freeze
import Verif.Props.FullDamp
import Verif.Props.HighCutoff
import Verif.Props.Hyperbolic
import Verif.Props.Ieee
import Verif.Props.Impulse
import Verif.Props.Interpolation
import Verif.Props.Knobs
import Verif.Props.LagrangeFloat
import Verif.Props.LagrangeWhole
import Verif.Props.Latency
import Verif.Props.Lateness
import Verif.Props.LerpShape
import Verif.Props.Level
import Verif.Props.LookupAccuracy
import Verif.Props.LookupSin
import Verif.Props.Lossless
import Verif.Props.Loudness
import Verif.Props.LowCutoff
import Verif.Props.LowCutoffRun
import Verif.Props.LowStable
import Verif.Props.Magnitude
import Verif.Props.Modulation
import Verif.Props.MonoSum
import Verif.Props.NaNSpread
import Verif.Props.Network
import Verif.Props.Octave
import Verif.Props.OctaveFloat
import Verif.Props.OscHistory
import Verif.Props.Oscillators
import Verif.Props.Overshoot
import Verif.Props.PanFloat
import Verif.Props.Period
import Verif.Props.PeriodicInput
import Verif.Props.Phase
import Verif.Props.PhaseLag
import Verif.Props.Pitch
import Verif.Props.Polarity
import Verif.Props.Power
import Verif.Props.Quadrature
import Verif.Props.Rack
import Verif.Props.Ratio
import Verif.Props.RepoTests
import Verif.Props.Ringing
import Verif.Props.Samples
import Verif.Props.Settings
import Verif.Props.Si
import Verif.Props.SinAccuracy
import Verif.Props.SinShape
import Verif.Props.Sinc
import Verif.Props.SineTable
import Verif.Props.Slice
import Verif.Props.SliceInterp
import Verif.Props.SliceWrapped
import Verif.Props.Smooth
import Verif.Props.Spectrum
import Verif.Props.Sweep
import Verif.Props.Synth
import Verif.Props.Tanh
import Verif.Props.Voice
import Verif.Props.WaveTable
import Verif.Spec.Analog
import Verif.Spec.Bits
import Verif.Spec.Blend
import Verif.Spec.Delay
import Verif.Spec.Envelope
import Verif.Spec.EnvelopeCurve
import Verif.Spec.External
import Verif.Spec.Filter
import Verif.Spec.Ieee
import Verif.Spec.Slice
import Verif.Spec.Sqrt
