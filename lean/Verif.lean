import Verif.Props.Index
import Verif.Props.BoxIter
import Verif.Props.Access
import Verif.Props.BoxAlgebra
import Verif.Props.Slice
import Verif.Props.Section
import Verif.Props.Subraster
import Verif.Props.Ball
import Verif.Props.Sampling
import Verif.Props.RasterCtor
import Verif.Props.Arithmetic
import Verif.Props.Fill
import Verif.Props.FillRounding
import Verif.Props.FourierFilter
import Verif.Props.Extrema
import Verif.Props.Distribution
import Verif.Props.DistributionRounding
import Verif.Props.AlignedBuffer
import Verif.Props.Random
import Verif.Props.Interpolation
import Verif.Props.Kernel
import Verif.Props.LineKernel
import Verif.Props.SeparableKernel
import Verif.Props.MedianFilter
import Verif.Props.Dft
import Verif.Props.Pipeline
import Verif.Props.Chronometer
import Verif.Props.IterationBenchmark
import Verif.Props.Exceptions
import Verif.Props.Matrix
import Verif.Props.TypeUtils
import Verif.Props.Math
import Verif.Props.Holders
import Verif.Props.Fits
import Verif.Props.Convolution
import Verif.Props.DftMemory
import Verif.Model.DftThreads
import Verif.Lemmas.DftThreads
import Verif.Props.DftThreads
import Verif.Props.Iterators
import Verif.Props.Noise
import Verif.Props.Lifetimes
import Verif.Props.ProgramOptions
import Verif.Props.Regions
import Verif.Props.Overflow
import Verif.Props.MatrixEigen
import Verif.Props.Rounding
import Verif.Props.KernelOrder
import Verif.Props.KernelRows
import Verif.Props.SeparableOrder
import Verif.Props.SeparableRounding
import Verif.Model.Integers
import Verif.Model.DistributionIntegers
import Verif.Props.Integers
import Verif.Props.IntegersBounded
import Verif.Model.QuantileRounding
import Verif.Props.QuantileRounding
import Verif.Props.DistributionIntegers
import Verif.Model.Mixed
import Verif.Props.Mixed
import Verif.Model.InterpolationRounding
import Verif.Lemmas.InterpolationRounding
import Verif.Props.NearestRounding
import Verif.Props.LinearRounding
import Verif.Model.InterpolationMixed
import Verif.Props.InterpolationMixed
import Verif.Model.NaN
import Verif.Props.NaN
import Verif.Props.CubicRounding
import Verif.Model.BallRounding
import Verif.Props.BallRounding
import Verif.Model.ScalarConversion
import Verif.Spec.ScalarConversion
import Verif.Props.ScalarConversion
import Verif.Model.DftDerivative
import Verif.Spec.Trigonometric
import Verif.Props.DftDerivative
import Verif.Model.ChronometerRounding
import Verif.Spec.Statistics
import Verif.Props.ChronometerRounding
import Verif.Spec.Linear
import Verif.Lemmas.Parametric
import Verif.Props.Linearity
import Verif.Model.ImpulseRounding
import Verif.Props.ImpulseRounding
import Verif.Model.NoiseRange
import Verif.Props.NoiseRange
import Verif.Spec.Nearest
import Verif.Lemmas.Nearest
import Verif.Model.ArithmeticRounding
import Verif.Props.ArithmeticRounding
import Verif.Model.KernelOverflow
import Verif.Lemmas.KernelOverflow
import Verif.Props.KernelOverflow
import Verif.Model.SeqUtils
import Verif.Lemmas.SeqUtils
import Verif.Props.SeqUtils
import Verif.Model.Formula
import Verif.Props.Formula
import Verif.Model.Channels
import Verif.Lemmas.Channels
import Verif.Props.Channels
import Verif.Model.Hsv
import Verif.Props.Hsv
import Verif.Model.Floating
import Verif.Props.Floating
import Verif.Model.HsvRounding
import Verif.Props.HsvRounding
import Verif.Model.Extrapolation
import Verif.Props.Extrapolation
import Verif.Model.MedianIntegers
import Verif.Props.MedianIntegers
import Verif.Model.NewInstance
import Verif.Spec.NewInstance
import Verif.Props.NewInstance
import Verif.Model.PixelWise
import Verif.Props.PixelWise
import Verif.Props.StableSeeds
import Verif.Model.Printf
import Verif.Props.Printf
import Verif.Model.KernelAlong
import Verif.Props.KernelAlong
import Verif.Model.Mersenne
import Verif.Props.EngineSeeds
import Verif.Model.Printf2d
import Verif.Props.Printf2d
import Verif.Model.BallMachine
import Verif.Props.BallMachine
import Verif.Model.MallocHolder
import Verif.Props.MallocHolder
import Verif.Model.RasterMoves
import Verif.Props.RasterMoves
import Verif.Model.SystemNoise
import Verif.Props.SystemNoise
import Verif.Model.Ends
import Verif.Props.Ends
import Verif.Model.MatrixProduct
import Verif.Props.MatrixProduct
import Verif.Props.KernelLarge
import Verif.Props.KernelWide
import Verif.Model.CorrelationBenchmark
import Verif.Props.LineKernelShort
import Verif.Props.CorrelationBenchmark
import Verif.Model.OptionObjects
import Verif.Props.OptionObjects
import Verif.Props.PipelineFetches
import Verif.Props.PipelineElapsed
import Verif.Model.PipelineParallel
import Verif.Props.PipelineParallel
