import Verif.Common.Close
import Verif.KdTree.Props
import Verif.NdArray.Props
import Verif.NdArray.Props2
import Verif.NdArray.Props3
import Verif.NdArray.ExactProps
import Verif.NdArray.ConsecutiveProps
import Verif.NdArray.VariadicProps
import Verif.Grid.ExactProps
import Verif.Histogram.ExactProps
import Verif.Grid.Props
import Verif.Histogram.Props
import Verif.Histogram.RoundProps
import Verif.Histogram.StatsRoundProps
import Verif.ThreadPool.Props
import Verif.ThreadPool.Fair
import Verif.ThreadPool.FairProps
import Verif.ThreadPool.NestedModel
import Verif.ThreadPool.NestedProps
import Verif.ThreadPool.RaceProps
import Verif.ThreadPool.WatchModel
import Verif.ThreadPool.WatchProps
import Verif.FilePool.Props
import Verif.FilePool.LoopModel
import Verif.FilePool.LoopProps
import Verif.FilePool.TableProps
import Verif.FilePool.DeadlockProps
import Verif.FilePool.LostProps
import Verif.FilePool.ReuseProps
import Verif.FilePool.CloseAllProps
import Verif.FilePool.ThreadsProps
import Verif.Npy.Props
import Verif.Npy.MmapModel
import Verif.Npy.MmapProps
import Verif.Npy.FormatProps
import Verif.Npy.NumpySpec
import Verif.Npy.NumpyLemmas
import Verif.Npy.NumpyProps
import Verif.SOM.Props
import Verif.SOM.Props2
import Verif.SOM.DrawProps
import Verif.SOM.InitProps
import Verif.XYDataset.Props
import Verif.XYDataset.Props2
import Verif.XYDataset.Props3
import Verif.Configuration.Props
import Verif.Configuration.Props2
import Verif.Configuration.Props3
import Verif.Configuration.IdProps
import Verif.Configuration.InstanceModel
import Verif.Configuration.InstanceProps
import Verif.Configuration.CatalogModel
import Verif.Configuration.CatalogProps
import Verif.MathUtils.PolyProps
import Verif.MathUtils.PolyRoundModel
import Verif.MathUtils.PolyRoundProps
import Verif.MathUtils.SolveRoundProps
import Verif.MathUtils.PiecewiseProps
import Verif.MathUtils.MulProps
import Verif.MathUtils.LinearProps
import Verif.MathUtils.SplineProps
import Verif.MathUtils.SplineRoundModel
import Verif.MathUtils.SplineRoundLemmas
import Verif.MathUtils.SplineRoundProps
import Verif.MathUtils.ApproxProps
import Verif.MathUtils.CurvatureProps
import Verif.MathUtils.GridApproxProps
import Verif.MathUtils.SimpleProps
import Verif.MathUtils.GridInterpProps
import Verif.MathUtils.InverseProps
import Verif.MathUtils.InverseRoundProps
import Verif.MathUtils.LinearRoundProps
import Verif.MathUtils.GridRoundModel
import Verif.MathUtils.GridRoundProps
import Verif.SOM.RoundModel
import Verif.SOM.RoundProps
import Verif.SOM.UMatrixModel
import Verif.SOM.UMatrixProps
import Verif.SOM.FactorRoundModel
import Verif.SOM.FactorRoundProps
import Verif.MathUtils.SamplerModel
import Verif.MathUtils.SamplerLemmas
import Verif.MathUtils.SamplerProps
import Verif.MathUtils.SamplerRoundModel
import Verif.MathUtils.SamplerRoundProps
import Verif.MathUtils.CumulativeProps
import Verif.MathUtils.CumulativeRoundProps
import Verif.MathUtils.ModesFloatModel
import Verif.MathUtils.ModesFloatProps
import Verif.MathUtils.ModesProps
import Verif.MathUtils.NumericProps
import Verif.Table.Props
import Verif.Table.ReaderProps
import Verif.Table.RowProps
import Verif.Table.ConvertProps
import Verif.Table.WriterProps
import Verif.Common.FloatText
import Verif.Common.FloatTextLemmas
import Verif.Table.FloatTextModel
import Verif.Table.FloatTextProps
import Verif.Table.FitsModel
import Verif.Table.FitsProps
import Verif.Table.FitsReaderProps
import Verif.Table.NamesProps
import Verif.Table.CastModel
import Verif.Table.CastProps
import Verif.Table.GridTableModel
import Verif.Table.GridTableProps
import Verif.Catalog.Model
import Verif.Catalog.CatProps
import Verif.Catalog.PhotProps
import Verif.Catalog.PhotPosProps
import Verif.Physics.Model
import Verif.Physics.Props
import Verif.Table.FitsFileModel
import Verif.Table.ConfigModel
import Verif.Table.ConfigProps
import Verif.Table.FitsFileProps
import Verif.Table.FitsStreamProps
import Verif.Grid.FitsProps
import Verif.Grid.FitsStrictProps
import Verif.Grid.ArchiveProps
import Verif.Grid.ArchiveStrictProps
import Verif.XYDataset.FitsParserProps
import Verif.XYDataset.AsciiParserProps
import Verif.XYDataset.ProviderModel
import Verif.XYDataset.ProviderProps
import Verif.NdArray.IterProps
import Verif.Grid.FixProps
import Verif.NdArray.Program
import Verif.NdArray.ProgramSpec
import Verif.NdArray.ProgramLemmas
import Verif.NdArray.ProgramProps
import Verif.NdArray.RoundModel
import Verif.NdArray.RoundProps
import Verif.NdArray.PrintModel
import Verif.NdArray.PrintProps
import Verif.MathUtils.NumericRoundModel
import Verif.MathUtils.AdaptiveRoundModel
import Verif.MathUtils.AdaptiveRoundProps
import Verif.MathUtils.NumericRoundProps
import Verif.MathUtils.QuadratureLemmas
import Verif.MathUtils.QuadratureProps
import Verif.Physics.DistanceModel
import Verif.Common.RealBinary
import Verif.Physics.DistanceProps
import Verif.Physics.DistanceRoundModel
import Verif.Physics.DistanceRoundProps
import Verif.Physics.CurvedLemmas
import Verif.Physics.CurvedRoundModel
import Verif.Physics.CurvedRoundLemmas
import Verif.Physics.CurvedRoundProps
import Verif.Configuration.OptionsModel
import Verif.Configuration.OptionsProps
import Verif.Common.FloatTextExact
import Verif.XYDataset.DecimalProps
import Verif.Grid.ProgramProps
import Verif.Caches.Model
import Verif.Caches.Props
import Verif.FilePool.PathModel
import Verif.FilePool.PathProps
import Verif.NotANumber.Model
import Verif.NotANumber.Agree
import Verif.NotANumber.Props
import Verif.Common.Gradual
import Verif.Common.Ieee
import Verif.KdTree.OverflowModel
import Verif.KdTree.OverflowProps
import Verif.Overflow.Model
import Verif.Overflow.CumulativeProps
import Verif.Overflow.Props
import Verif.Overflow.SolveProps
import Verif.Histogram.VarsModel
import Verif.Histogram.VarsProps
import Verif.MathUtils.CumulativeExactProps
import Verif.MathUtils.SimpleExactProps
import Verif.Npy.ExactProps
import Verif.Configuration.DetectModel
import Verif.Configuration.DetectProps
import Verif.Table.SharedModel
import Verif.Table.SharedLemmas
import Verif.Table.SharedProps
import Verif.Table.SharedTablesProps
import Verif.Table.ColumnsProps
import Verif.Table.DefinedProps
import Verif.Table.CommentProps
import Verif.Npy.AnyProps
import Verif.Npy.FieldProps
import Verif.Configuration.CycleProps
import Verif.MathUtils.DatasetProps
import Verif.XYDataset.EndlessProps
import Verif.XYDataset.ListingProps
import Verif.Table.GridTableExactProps
import Verif.Configuration.BandModel
import Verif.Configuration.BandProps
import Verif.Table.FitsExactProps
import Verif.MathUtils.MulExactProps
import Verif.Grid.FixExactProps
import Verif.Grid.CornerProps
import Verif.Grid.TrackProps
import Verif.Catalog.RowProps
import Verif.Configuration.LifeProps
import Verif.MathUtils.Examples
import Verif.MathUtils.Examples2
import Verif.MathUtils.Examples3
import Verif.Histogram.Examples
import Verif.NdArray.Examples
import Verif.SOM.Examples
import Verif.Physics.Examples
import Verif.Overflow.Examples
import Verif.Table.Examples
import Verif.FilePool.Examples
import Verif.Grid.Examples
import Verif.Npy.Examples
import Verif.XYDataset.Examples
import Verif.Configuration.Examples
import Verif.Catalog.Examples
