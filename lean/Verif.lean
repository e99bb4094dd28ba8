import Verif.C
import Verif.Model.Convolve
import Verif.Lemmas.Convolve
import Verif.Props.Convolution
import Verif.Lemmas.ConvolutionFilter
import Verif.Props.ConvolutionFilter
import Verif.Lemmas.EventList
import Verif.Props.EventList
import Verif.Lemmas.Seq
import Verif.Lemmas.SeqTrace
import Verif.Props.Seq
import Verif.Props.SeqExamples
import Verif.Lemmas.Wave
import Verif.Props.Wave
import Verif.Lemmas.EventTree
import Verif.Props.EventTree
import Verif.Props.Group
import Verif.Props.EventMemory
import Verif.Props.BlockGenerate
import Verif.Props.Block
import Verif.Props.Random
import Verif.Props.RandomArrays
import Verif.Props.Quicksort
import Verif.Props.Arrays
import Verif.Props.ArrayHeap
import Verif.Props.ArrayHeapMore
import Verif.Props.ArraysSelect
import Verif.Props.Numbers
import Verif.Props.Sequences
import Verif.Props.Compositions
import Verif.Props.Permutations
import Verif.Props.Statistics
import Verif.Props.Interleave
import Verif.Props.File
import Verif.Props.Queue
import Verif.Props.ThreadPool
import Verif.Props.ThreadPoolFair
import Verif.Props.ThreadPoolNested
import Verif.Props.Init
import Verif.Props.SeqParallel
import Verif.Props.Path
import Verif.Props.PathCurve
import Verif.Props.Fft
import Verif.Props.Filter
import Verif.Props.MovingAverage
import Verif.Props.Extra
import Verif.Props.Scaling
import Verif.Props.ExtraRandom
import Verif.Props.Render
import Verif.Props.Noise
import Verif.Props.NoiseGenerate
import Verif.Props.NoiseEvents
import Verif.Props.NoiseSeed
import Verif.Props.EventListValidate
import Verif.Props.SincFilter
import Verif.Props.FftMemory
import Verif.Props.FilterMemory
import Verif.Props.Units
import Verif.Props.MapEvent
import Verif.Props.TreeFree
import Verif.Props.BlockOffset
import Verif.Props.WaveDefaults
import Verif.Props.FloatSine
import Verif.Props.PathWhole
import Verif.Props.PathNest
import Verif.Props.PathN
import Verif.Props.FloatSum
import Verif.Props.FloatConvolution
import Verif.Props.FloatPath
import Verif.Props.FloatBlend
import Verif.Props.FloatAverage
import Verif.Props.FloatWave
import Verif.Props.FloatMean
import Verif.Props.Compare
import Verif.Props.FloatRandom
import Verif.Props.EnvelopeTwo
import Verif.Props.PathCustom
import Verif.Props.PathReuse
import Verif.Props.PathMemory
import Verif.Props.EventAlloc
import Verif.Props.Status
import Verif.Props.FloatFft
import Verif.Props.Single
import Verif.Props.FilterFormula
import Verif.Props.Plot
import Verif.Props.PlotNames
import Verif.Props.PlotMixed
import Verif.Props.PlotRender
import Verif.Props.Strings
import Verif.Props.Array3
import Verif.Props.Score
import Verif.Props.FileErrors
import Verif.Props.Filesystem
import Verif.Props.SteadyTone
import Verif.Props.RandomPeriod
import Verif.Props.StoreBuffers
import Verif.Props.InitFail
import Verif.Props.SeqParallelFloat
import Verif.Props.FloatMix
import Verif.Props.ParallelBlocks
import Verif.Props.SeedRace
import Verif.Props.LongFile
import Verif.Props.ReadErrors
import Verif.Props.FloatParallel
import Verif.Props.FloatFile
import Verif.Props.FloatScore
import Verif.Props.FloatParallelScore
import Verif.Props.FloatSinc
import Verif.Props.LowPass
import Verif.Props.FloatLowPass
import Verif.Props.FloatBand
import Verif.Props.FloatTone
import Verif.Props.FloatToneProgram
import Verif.Props.FloatChord
import Verif.Props.FloatSumAny
import Verif.Props.FloatKernel
import Verif.Props.ParallelGroup
import Verif.Props.RandomArray
import Verif.Props.Nearly
import Verif.Props.EventPath
import Verif.Props.FilterAlloc
import Verif.Props.FloatSpectrum
import Verif.Props.FftUse
import Verif.Props.BlockAlloc
import Verif.Props.FilterSpectrum
import Verif.Props.RandomSeed
import Verif.Props.ListAlloc
import Verif.Props.KernelSpectrum
import Verif.Props.FileAlloc
import Verif.Props.CompositionsAlloc
import Verif.Props.PermutationsAlloc
import Verif.Props.ArrayAlloc
