import Verif.Model.SymPairs
import Verif.Model.RealOps
import Verif.Model.Interpolatef
import Verif.Lemmas.SymScale
import Verif.Lemmas.ShapeOps
import Verif.Lemmas.SymPairs
import Verif.Lemmas.Shape
import Verif.Lemmas.Interpolatef
import Verif.Spec.History
import Verif.Spec.Interpolatef
import Verif.Spec.Windows
import Verif.Model.Slice
import Verif.Model.Complex
import Verif.Lemmas.Complex
import Verif.Model.Vec
import Verif.Model.Reorg
import Verif.Spec.View
import Verif.Lemmas.Slice
import Verif.Lemmas.Reorg
import Verif.Props.Reorg
import Verif.Lemmas.Points
import Verif.Props.Construct
import Verif.Lemmas.Pts
import Verif.Lemmas.Pad
import Verif.Props.Pad
import Verif.Props.Interleave
import Verif.Lemmas.Index
import Verif.Props.SplitMerge
import Verif.Model.DiffSum
import Verif.Props.DiffSum
import Verif.Model.Chunk
import Verif.Lemmas.Chunk
import Verif.Props.Chunk
import Verif.Spec.Schedule
import Verif.Model.Simd
import Verif.Lemmas.Simd
import Verif.Props.Simd
import Verif.Model.Registers
import Verif.Props.Registers
import Verif.Model.Elementary
import Verif.Spec.Elementary
import Verif.Props.Elementary
import Verif.Model.Sums
import Verif.Props.Sums
import Verif.Model.Stats
import Verif.Spec.Stats
import Verif.Props.Stats
import Verif.Props.StatsSplit
import Verif.Lemmas.BlockMap
import Verif.Props.Mapping
import Verif.Model.ComplexReal
import Verif.Spec.Convert
import Verif.Props.ComplexReal
import Verif.Props.ComplexOps
import Verif.Props.Windows
import Verif.Props.RealOps
import Verif.Model.Fft
import Verif.Spec.Fft
import Verif.Props.Fft
import Verif.Props.SymFft
import Verif.Props.Dft
import Verif.Spec.Conv
import Verif.Spec.ConvFreq
import Verif.Model.Conv
import Verif.Lemmas.ConvSimd
import Verif.Props.Conv
import Verif.Props.ConvFreq
import Verif.Props.DftConv
import Verif.Props.ConvVec
import Verif.Model.Interp
import Verif.Spec.Interp
import Verif.Props.Interp
import Verif.Props.InterpLin
import Verif.Props.InterpHermite
import Verif.Model.InlineVec
import Verif.Model.History
import Verif.Spec.InlineVec
import Verif.Props.InlineVec
import Verif.Props.History
import Verif.Spec.Storage
import Verif.Spec.Reorg
import Verif.Spec.Signal
import Verif.Spec.Safe
import Verif.Lemmas.Shows
import Verif.Props.Refinement
import Verif.Model.Correlation
import Verif.Spec.Correlation
import Verif.Props.DftCorr
import Verif.Props.Correlation
import Verif.Model.ConvFunction
import Verif.Spec.ConvFunction
import Verif.Props.ConvFunction
import Verif.Props.WindowedFft
import Verif.Model.FreqResponse
import Verif.Spec.FreqResponse
import Verif.Lemmas.FreqResponse
import Verif.Props.FreqResponse
import Verif.Model.Interpolate
import Verif.Spec.Interpolate
import Verif.Props.Interpolate
import Verif.Props.DftStretch
import Verif.Props.Interpft
import Verif.Props.Interpolatei
import Verif.Props.InterpftCases
import Verif.Props.Interpolatef
import Verif.Props.InterpolatefCases
import Verif.Model.Matrix
import Verif.Spec.Matrix
import Verif.Props.Matrix
import Verif.Props.MatrixRes
import Verif.Props.MatrixGet
import Verif.Props.MatrixMeta
import Verif.Model.MatrixConv
import Verif.Spec.MatrixConv
import Verif.Props.MatrixConv
import Verif.Model.LookupTable
import Verif.Spec.LookupTable
import Verif.Props.LookupTable
import Verif.Props.LookupConv
import Verif.Props.LookupSpectrum
import Verif.Props.ConvFunctions
import Verif.Model.InteropArgs
import Verif.Model.InteropTable
import Verif.Model.Interop
import Verif.Spec.Interop
import Verif.Props.InteropHeap
import Verif.Props.Interop
import Verif.Props.InteropAccess
import Verif.Model.Program
import Verif.Spec.Program
import Verif.Spec.ProgramSafe
import Verif.Props.ProgramUn
import Verif.Props.ProgramBin
import Verif.Props.Program
import Verif.Spec.Rounding
import Verif.Props.Rounding
import Verif.Props.RoundingComplex
import Verif.Props.Bitwise
import Verif.Model.Index
import Verif.Props.Index
import Verif.Model.NoThreading
import Verif.Props.NoThreading
import Verif.Model.MatrixOps
import Verif.Spec.MatrixOps
import Verif.Lemmas.MatrixBuffers
import Verif.Props.MatrixOps
import Verif.Props.MatrixOpsBin
import Verif.Props.MatrixOpsSym
import Verif.Model.Calibration
import Verif.Spec.Calibration
import Verif.Props.Calibration
import Verif.Model.Approximations
import Verif.Spec.Approximations
import Verif.Lemmas.PolyBounds
import Verif.Lemmas.Approximations
import Verif.Lemmas.ApproxExp
import Verif.Lemmas.ApproxSin
import Verif.Lemmas.ApproxLn
import Verif.Props.Approximations
import Verif.Model.Extract
import Verif.Props.Extract
import Verif.Spec.Wrap
import Verif.Props.Wrap
import Verif.Model.Facade
import Verif.Spec.Facade
import Verif.Props.Facade
import Verif.Props.FacadeArgs
import Verif.Props.StatsRounding
import Verif.Spec.FourierLaws
import Verif.Lemmas.DftLaws
import Verif.Props.FourierLaws
import Verif.Spec.ConvRounding
import Verif.Props.ConvRounding
import Verif.Model.Gpu
import Verif.Spec.Gpu
import Verif.Lemmas.Gpu
import Verif.Props.Gpu
import Verif.Props.GpuCases
import Verif.Lemmas.SymExact
import Verif.Props.WindowsExact
import Verif.Props.FreqResponseExact
import Verif.Props.ConvExact
import Verif.Props.SplitMergeExact
import Verif.Props.PadExact
import Verif.Props.StatsMin
import Verif.Props.WrapExact
import Verif.Props.InterpolateExact
import Verif.Props.MappingExact
import Verif.Spec.ConvLaws
import Verif.Lemmas.ConvLaws
import Verif.Props.ConvLaws
import Verif.Spec.ElementaryRounding
import Verif.Props.ElementaryRounding
import Verif.Spec.CorrLaws
import Verif.Lemmas.CorrLaws
import Verif.Props.CorrLaws
import Verif.Props.ProgramStat
import Verif.Spec.StatsLaws
import Verif.Lemmas.StatsLaws
import Verif.Props.StatsLaws
import Verif.Spec.Special
import Verif.Props.Special
import Verif.Spec.SpecialComplex
import Verif.Props.SpecialComplex
import Verif.Spec.BandLimited
import Verif.Lemmas.BandLimited
import Verif.Props.BandLimited
import Verif.Spec.RoundTrips
import Verif.Props.RoundTrips
import Verif.Props.RoundTripsInterp
import Verif.Props.InteropOperands
import Verif.Spec.SpecialConv
import Verif.Props.SpecialConv
import Verif.Spec.ModulationRounding
import Verif.Model.WindowFunctions
import Verif.Props.ModulationRounding
import Verif.Props.WindowRounding
import Verif.Spec.GpuSingle
import Verif.Props.GpuSingle
import Verif.Spec.FftRounding
import Verif.Props.FftRounding
import Verif.Spec.ConvFftRounding
import Verif.Props.ConvFftRounding
import Verif.Spec.CorrRounding
import Verif.Props.CorrRounding
import Verif.Spec.WindowedFftRounding
import Verif.Props.WindowedFftRounding
import Verif.Spec.StatsComplexRounding
import Verif.Props.StatsComplexRounding
import Verif.Props.SpecialSplit
import Verif.Spec.InterpRounding
import Verif.Model.InterpRounding
import Verif.Props.InterpRounding
import Verif.Spec.InterpLaws
import Verif.Props.InterpLaws
import Verif.Props.SpecialDot
