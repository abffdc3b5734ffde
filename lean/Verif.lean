import Verif.Iter.Props
import Verif.Array.Props
import Verif.Array.Props2
import Verif.Array.Props3
import Verif.Array.Props5b
import Verif.Bytes.Props
import Verif.Stream.NullSupProps
import Verif.Stream.Props
import Verif.Stream.Props16
import Verif.Stream.Props16b
import Verif.Cache.Props
import Verif.Tree.PoolProps
import Verif.Tree.BBoxProps
import Verif.Tree.PoolSeq
import Verif.Tree.Props
import Verif.Dist.Props27
import Verif.Dist.Lib
import Verif.Dist.Hist
import Verif.Dist.Props28
import Verif.Dist.Props29
import Verif.Dist.Props29b
import Verif.Dist.Props26
import Verif.Dist.Crash
import Verif.Dist.Props33
import Verif.Rebuild.Pad
import Verif.Rebuild.Model
import Verif.Rebuild.PadProof
import Verif.Rebuild.Chunk
import Verif.Rebuild.Loop
import Verif.Rebuild.Cyl
import Verif.Rebuild.Partial
import Verif.Rebuild.Whole
import Verif.Rebuild.Props32
import Verif.Ops.Props34
import Verif.Green.Props36
import Verif.Green.Props38
import Verif.Green.Props39
import Verif.Green.Props40
import Verif.Green.Props42
import Verif.Meep.Props43
import Verif.Meep.Props45
import Verif.Meep.Props56
import Verif.Meep.Overlap
import Verif.Meep.Padding
import Verif.Array.Numpy
import Verif.Shower.Props
import Verif.Dist.Clean
import Verif.Dist.Props59
import Verif.Meep.Rechunk
import Verif.Meep.Partition
import Verif.Meep.RechunkPart
import Verif.Meep.RechunkOne
import Verif.Meep.RechunkRun
import Verif.Meep.RechunkMerge
import Verif.Meep.RechunkEnd
import Verif.Meep.Props44
import Verif.Meep.RechunkFine
import Verif.Meep.RechunkAny
import Verif.Meep.Props44b
import Verif.Meep.Whole
import Verif.Meep.Props57
import Verif.Meep.Pipeline
import Verif.Meep.Props60
import Verif.Meep.Fill
import Verif.Meep.FillProof
import Verif.Meep.FillRun
import Verif.Meep.Props61
import Verif.Meep.Props62
import Verif.Analytic.Field
import Verif.Dist.ReadCfg
import Verif.Green.Create
import Verif.Green.CreateProof
import Verif.Green.Props66
import Verif.Analytic.Gamma
import Verif.Analytic.GammaCF
import Verif.Analytic.GammaSeries
import Verif.Analytic.Props64
import Verif.Analytic.FieldProof
import Verif.Analytic.Props65
import Verif.Analytic.Calc
import Verif.Analytic.CalcProof
import Verif.Analytic.Props63
import Verif.Analytic.Props68
import Verif.Green.Loaded
import Verif.Green.Request
import Verif.Analytic.Serve
import Verif.Analytic.Props67
import Verif.Meep.Domain
import Verif.Meep.Props58
import Verif.Meep.Finish
import Verif.Meep.Serve
import Verif.Meep.Props69
import Verif.Green.Signal
import Verif.Green.Symmetry
import Verif.Analytic.Props70
import Verif.App.Table
import Verif.App.Csv
import Verif.App.Export
import Verif.Meep.Source
import Verif.Analytic.Maxwell
import Verif.Dist.Truncate
import Verif.Dist.Calm
import Verif.Dist.Durable
import Verif.Dist.Grown
import Verif.Dist.Props78
import Verif.Green.Rounding
import Verif.Green.Props79
import Verif.Green.Props80
import Verif.Green.Props81
import Verif.Dist.Touch
import Verif.Dist.Props82
import Verif.Shower.File
import Verif.Shower.Props83
import Verif.Array.Alias
import Verif.Array.Props84
import Verif.Green.TrackF
import Verif.Green.TrackFSpec
import Verif.Green.TrackFProof
import Verif.Green.TrackFError
import Verif.Green.Props85
import Verif.Stream.Buffer
import Verif.Stream.Props86
import Verif.Stream.Stale
import Verif.Green.Smooth
import Verif.Green.Accuracy
import Verif.Green.Quadrature
import Verif.Green.Convolution
import Verif.Green.Props88
import Verif.Green.NearAxis
import Verif.Analytic.FilterSmooth
import Verif.Analytic.Converge
import Verif.Analytic.Props90
import Verif.Shower.Dimensions
import Verif.Shower.Props91
import Verif.Meep.Converge
import Verif.Meep.Props92
import Verif.Green.FastMath
import Verif.Green.Props93
import Verif.Shower.Signal
import Verif.Shower.Props94
import Verif.Tree.Json
import Verif.Tree.Dump
import Verif.Tree.Props95
import Verif.Green.ExportGreen
import Verif.Green.FarFace
import Verif.Analytic.Props96
import Verif.Shower.Convert
import Verif.Shower.Props97
import Verif.Meep.Props98
import Verif.Plot.Model
import Verif.Plot.Props99
import Verif.Array.Props8b
import Verif.Array.Value
import Verif.Array.Props100
import Verif.Stream.Props16c
import Verif.Dist.Props52
import Verif.Dist.Local
import Verif.Dist.Props101
import Verif.Meep.Team
import Verif.Meep.Props102
import Verif.Dist.Props103
