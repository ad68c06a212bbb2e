import Verif.Alloc.Model
import Verif.Alloc.Props
import Verif.AsyncTools.Lemmas
import Verif.AsyncTools.Model
import Verif.AsyncTools.Props
import Verif.AsyncTools.Spec
import Verif.Bench.LinearModel
import Verif.Bench.LinearProps
import Verif.Bench.RecallModel
import Verif.Bench.RecallProps
import Verif.Bench.SpanModel
import Verif.Bench.SpanProps
import Verif.Bftree.Conc
import Verif.Bftree.Lemmas
import Verif.Bftree.Model
import Verif.Bftree.Props
import Verif.Bftree.SaveLemmas
import Verif.Bftree.SaveModel
import Verif.Bftree.SaveProps
import Verif.Bftree.Spec
import Verif.Bftree.VecLemmas
import Verif.Bftree.VecModel
import Verif.Bftree.VecProps
import Verif.Bftree.VecSpec
import Verif.Build.Lemmas
import Verif.Build.Model
import Verif.Build.Props
import Verif.Build.Spec
import Verif.Config.Float
import Verif.Config.Model
import Verif.Config.Props
import Verif.Config.RetryProps
import Verif.Config.SettingProps
import Verif.Config.Spec
import Verif.Disk.BfsLemmas
import Verif.Disk.BfsModel
import Verif.Disk.BfsProps
import Verif.Disk.CacheModel
import Verif.Disk.CacheProps
import Verif.Disk.CachedModel
import Verif.Disk.CachedProps
import Verif.Disk.CachedSpec
import Verif.Disk.DiverseProps
import Verif.Disk.GraphFileLemmas
import Verif.Disk.GraphFileModel
import Verif.Disk.GraphFileProps
import Verif.Disk.GraphFileSpec
import Verif.Disk.HeaderModel
import Verif.Disk.HeaderProps
import Verif.Disk.LayoutLemmas
import Verif.Disk.LayoutModel
import Verif.Disk.LayoutProps
import Verif.Disk.LayoutRead
import Verif.Disk.LayoutSpec
import Verif.Disk.MergeLemmas
import Verif.Disk.MergeModel
import Verif.Disk.MergeProps
import Verif.Disk.MergeSpec
import Verif.Disk.MultiVecModel
import Verif.Disk.MultiVecProps
import Verif.Disk.QuantTypeModel
import Verif.Disk.QuantTypeProps
import Verif.Disk.SearchApiLemmas
import Verif.Disk.SearchLemmas
import Verif.Disk.SearchModel
import Verif.Disk.SearchOutLemmas
import Verif.Disk.SearchProps
import Verif.Disk.SearchSpec
import Verif.Disk.VectorFileModel
import Verif.Disk.VectorFileProps
import Verif.Error.AnnErrorModel
import Verif.Error.AnnErrorProps
import Verif.Garnet.BeamLemmas
import Verif.Garnet.BeamModel
import Verif.Garnet.BeamProps
import Verif.Garnet.FsmInv
import Verif.Garnet.FsmLemmas
import Verif.Garnet.FsmLoad
import Verif.Garnet.FsmLog
import Verif.Garnet.FsmModel
import Verif.Garnet.FsmProps
import Verif.Garnet.FsmSpec
import Verif.Garnet.ProviderModel
import Verif.Garnet.ProviderProps
import Verif.Garnet.QuantLemmas
import Verif.Garnet.QuantModel
import Verif.Garnet.QuantProps
import Verif.Garnet.QuantSpec
import Verif.Garnet.RaceLemmas
import Verif.Garnet.RaceModel
import Verif.Garnet.RaceProps
import Verif.Garnet.ReportLemmas
import Verif.Garnet.ReportModel
import Verif.Garnet.ReportProps
import Verif.Garnet.ReportSpec
import Verif.Garnet.StartModel
import Verif.Garnet.StartProps
import Verif.Garnet.StoreLemmas
import Verif.Garnet.StoreModel
import Verif.Garnet.StoreProps
import Verif.Garnet.StoreSpec
import Verif.Graph.AdjModel
import Verif.Graph.AdjProps
import Verif.Graph.BatchLemmas
import Verif.Graph.BatchModel
import Verif.Graph.BatchProps
import Verif.Graph.DeleteLemmas
import Verif.Graph.DeleteModel
import Verif.Graph.DeleteProps
import Verif.Graph.HistoryProps
import Verif.Graph.PruneLemmas
import Verif.Graph.PruneModel
import Verif.Graph.PruneProps
import Verif.Graph.SaturateProps
import Verif.Graph.UpdateModel
import Verif.Graph.UpdateProps
import Verif.Harness.Lemmas
import Verif.Harness.Model
import Verif.Harness.Props
import Verif.Harness.Spec
import Verif.Inmem.AllocAcquire
import Verif.Inmem.AllocLemmas
import Verif.Inmem.AllocModel
import Verif.Inmem.AllocProps
import Verif.Inmem.EbrLemmas
import Verif.Inmem.EbrModel
import Verif.Inmem.EbrProps
import Verif.Inmem.EbrSlots
import Verif.Inmem.EbrSpec
import Verif.Inmem.IdsLemmas
import Verif.Inmem.IdsModel
import Verif.Inmem.IdsProps
import Verif.Inmem.LiveLemmas
import Verif.Inmem.LiveModel
import Verif.Inmem.LiveProps
import Verif.Inmem.LiveSpec
import Verif.Inmem.NbrModel
import Verif.Inmem.NbrProps
import Verif.Inmem.NbrSpec
import Verif.Io.RingLemmas
import Verif.Io.RingModel
import Verif.Io.RingProps
import Verif.Io.RingSpec
import Verif.Kmeans.DiskLemmas
import Verif.Kmeans.DiskModel
import Verif.Kmeans.DiskPlusLemmas
import Verif.Kmeans.DiskProps
import Verif.Kmeans.DiskSpec
import Verif.Kmeans.Lemmas
import Verif.Kmeans.LloydLemmas
import Verif.Kmeans.LossLemmas
import Verif.Kmeans.Model
import Verif.Kmeans.PlusLemmas
import Verif.Kmeans.Props
import Verif.Kmeans.Spec
import Verif.Kmeans.TrainLemmas
import Verif.Label.EncodedLemmas
import Verif.Label.EncodedModel
import Verif.Label.EncodedProps
import Verif.Label.EncodedSpec
import Verif.Label.FaultLemmas
import Verif.Label.FaultModel
import Verif.Label.FaultProps
import Verif.Label.IndexAgree
import Verif.Label.IndexEval
import Verif.Label.IndexInv
import Verif.Label.IndexLabel
import Verif.Label.IndexModel
import Verif.Label.IndexProps
import Verif.Label.IndexSpec
import Verif.Label.JsonlModel
import Verif.Label.JsonlProps
import Verif.Label.KeyLemmas
import Verif.Label.KeyModel
import Verif.Label.KeyProps
import Verif.Label.KeySpec
import Verif.Label.ParserProps
import Verif.Label.ParserSpec
import Verif.Label.QueryModel
import Verif.Multi.Lemmas
import Verif.Multi.Model
import Verif.Multi.Props
import Verif.Multi.PropsLemmas
import Verif.Multi.Spec
import Verif.Pool.Model
import Verif.Pool.Props
import Verif.Pool.Spec
import Verif.Pq.BatchLemmas
import Verif.Pq.ClosestLemmas
import Verif.Pq.CodeLemmas
import Verif.Pq.CompressLemmas
import Verif.Pq.CompressModel
import Verif.Pq.CompressProps
import Verif.Pq.DistBatchProps
import Verif.Pq.DistLemmas
import Verif.Pq.DistModel
import Verif.Pq.DistMultiProps
import Verif.Pq.DistProps
import Verif.Pq.DistSpec
import Verif.Pq.EncodeBatchProps
import Verif.Pq.EncodeLemmas
import Verif.Pq.EncodeModel
import Verif.Pq.EncodeProps
import Verif.Pq.EncodeSpec
import Verif.Pq.EncodeTies
import Verif.Pq.LookupLemmas
import Verif.Pq.MultiProviderModel
import Verif.Pq.MultiProviderProps
import Verif.Pq.StoreLemmas
import Verif.Pq.StoreModel
import Verif.Pq.StoreProps
import Verif.Pq.TableLemmas
import Verif.Provider.Lemmas
import Verif.Provider.Model
import Verif.Provider.Props
import Verif.Provider.Spec
import Verif.Quant.AffineLemmas
import Verif.Quant.AffineSpec
import Verif.Quant.BitKernelFull
import Verif.Quant.BitKernelHet
import Verif.Quant.BitKernelLemmas
import Verif.Quant.BitKernelModel
import Verif.Quant.BitKernelOneBit
import Verif.Quant.BitKernelPacked
import Verif.Quant.BitKernelProps
import Verif.Quant.BitKernelSpec
import Verif.Quant.BitsModel
import Verif.Quant.BitsProps
import Verif.Quant.CanonModel
import Verif.Quant.CanonProps
import Verif.Quant.HeapModel
import Verif.Quant.HeapProps
import Verif.Quant.MinMaxModel
import Verif.Quant.MinMaxProps
import Verif.Quant.MinMaxSpec
import Verif.Quant.ScalarModel
import Verif.Quant.ScalarProps
import Verif.Queue.DiverseInv
import Verif.Queue.DiverseLemmas
import Verif.Queue.DiverseModel
import Verif.Queue.DiverseProps
import Verif.Queue.DiverseSpec
import Verif.Queue.DiverseStep
import Verif.Queue.History
import Verif.Queue.Lemmas
import Verif.Queue.Model
import Verif.Queue.Props
import Verif.Queue.RemoveProps
import Verif.Queue.Spec
import Verif.Record.NumberModel
import Verif.Record.NumberProps
import Verif.Record.SaveInv
import Verif.Record.SaveModel
import Verif.Record.SaveProps
import Verif.Record.TextModel
import Verif.Record.TextProps
import Verif.Record.ValueModel
import Verif.Record.ValueProps
import Verif.Runbook.Lemmas
import Verif.Runbook.ManagedLemmas
import Verif.Runbook.ManagedModel
import Verif.Runbook.ManagedProps
import Verif.Runbook.ManagedSpec
import Verif.Runbook.Model
import Verif.Runbook.Props
import Verif.Runbook.Spec
import Verif.Runbook.TruthModel
import Verif.Runbook.TruthProps
import Verif.Runbook.TruthSpec
import Verif.Runner.CheckLemmas
import Verif.Runner.CheckModel
import Verif.Runner.CheckProps
import Verif.Runner.CheckSpec
import Verif.Runner.CheckerModel
import Verif.Runner.CheckerProps
import Verif.Runner.LatencyModel
import Verif.Runner.LatencyProps
import Verif.Runner.SaveModel
import Verif.Runner.SaveProps
import Verif.Search.BetaModel
import Verif.Search.BetaProps
import Verif.Search.BufferModel
import Verif.Search.BufferProps
import Verif.Search.DSearchLemmas
import Verif.Search.DSearchModel
import Verif.Search.DSearchProps
import Verif.Search.DSearchSpec
import Verif.Search.DiverseExact
import Verif.Search.DiverseGram
import Verif.Search.DiverseLemmas
import Verif.Search.DiverseModel
import Verif.Search.DiverseProps
import Verif.Search.DiverseSpec
import Verif.Search.FRangeProps
import Verif.Search.FilterLemmas
import Verif.Search.FilterModel
import Verif.Search.FilterProps
import Verif.Search.FlatModel
import Verif.Search.FlatProps
import Verif.Search.HopLemmas
import Verif.Search.HopProps
import Verif.Search.Lemmas
import Verif.Search.Model
import Verif.Search.PagedProps
import Verif.Search.Props
import Verif.Search.RangeProps
import Verif.Search.Spec
import Verif.Shard.Lemmas
import Verif.Shard.Model
import Verif.Shard.Props
import Verif.Shard.Spec
import Verif.Spherical.CompressLemmas
import Verif.Spherical.ErrorProps
import Verif.Spherical.IfaceModel
import Verif.Spherical.IfaceProps
import Verif.Spherical.Inst
import Verif.Spherical.Lemmas
import Verif.Spherical.Model
import Verif.Spherical.OptLemmas
import Verif.Spherical.OptProps
import Verif.Spherical.Props
import Verif.Spherical.QueryLemmas
import Verif.Spherical.Spec
import Verif.Spherical.WalkLemmas
import Verif.Start.Lemmas
import Verif.Start.Model
import Verif.Start.Props
import Verif.Start.Spec
import Verif.Tools.BitmapLemmas
import Verif.Tools.BitmapModel
import Verif.Tools.BitmapNumProps
import Verif.Tools.BitmapProps
import Verif.Tools.BitmapSpec
import Verif.Tools.ContrastModel
import Verif.Tools.ContrastProps
import Verif.Tools.LabelGenModel
import Verif.Tools.LabelGenProps
import Verif.Tools.RandomDataModel
import Verif.Tools.RandomDataProps
import Verif.Tools.SpecificityModel
import Verif.Tools.SpecificityProps
import Verif.Tools.TruthLemmas
import Verif.Tools.TruthModel
import Verif.Tools.TruthProps
import Verif.Tools.TruthSpec
import Verif.Transform.ApiLemmas
import Verif.Transform.HadAlgebra
import Verif.Transform.HadLemmas
import Verif.Transform.HadModel
import Verif.Transform.HadProps
import Verif.Transform.HadSpec
import Verif.Transform.NewLemmas
import Verif.Transform.PackProps
import Verif.Transform.TransLemmas
import Verif.Vec.BlockLemmas
import Verif.Vec.BlockModel
import Verif.Vec.BlockProps
import Verif.Vec.ContainsModel
import Verif.Vec.ContainsProps
import Verif.Vec.LaneModel
import Verif.Vec.LaneProps
import Verif.Vec.LoadModel
import Verif.Vec.LoadProps
import Verif.Vec.SimdInst
import Verif.Vec.SimdLemmas
import Verif.Vec.SimdModel
import Verif.Vec.SimdProps
import Verif.Vec.SimdSpec
import Verif.WorkingSet.Lemmas
import Verif.WorkingSet.Model
import Verif.WorkingSet.Props
