import Verif.IntervalSet.Props
import Verif.DaVector.Props
import Verif.ErrorStack.Props
import Verif.Blocking.Props
import Verif.Copies.Props
import Verif.Categorical.Props
import Verif.Split.Props
import Verif.Stratified.Props
import Verif.Dbscan.Props
import Verif.RadiusBrute.Props
import Verif.Quantile.Props
import Verif.KSelect.Props
import Verif.Cache.Props
import Verif.SvmKernel.Props
import Verif.Parse.Props
import Verif.Parse.PropsFloat
import Verif.CsvTable.Props
import Verif.AutoDetect.Props
import Verif.IntervalMap.Props
import Verif.Persist.Props
import Verif.Options.Props
import Verif.Sort.Props
import Verif.Partition.Props
import Verif.Histogram.Props
import Verif.TreeSplit.Props
import Verif.TreeSplit.PropsCat
import Verif.Tree.Props
import Verif.Tree.PropsBugs
import Verif.Forest.Props
import Verif.Forest.PropsHandle
import Verif.Heap.Props
import Verif.NnTree.Props
import Verif.DataStore.Props
import Verif.DataStore.PropsLabels
import Verif.Tokenizer.Props
import Verif.Tokenizer.PropsRead
import Verif.Tokenizer.PropsEol
import Verif.Tokenizer.PropsReader
import Verif.Half.Props
import Verif.HalfBlas.Props
import Verif.HalfBlas.PropsNorm
import Verif.Smo.Spec
import Verif.Smo.Model
import Verif.Smo.Select
import Verif.Smo.Local
import Verif.Smo.Global
import Verif.Smo.Train
import Verif.Smo.Props
import Verif.Smo.Init
import Verif.Smo.InitProof
import Verif.Smo.PropsInit
import Verif.Smo.Decision
import Verif.Smo.DecisionProof
import Verif.Smo.PropsDecision
import Verif.SvmMulti.Model
import Verif.SvmMulti.Proof
import Verif.SvmMulti.Props
import Verif.SvmMulti.PropsVotes
import Verif.SvmMulti.Handle
import Verif.SvmMulti.PropsHandle
import Verif.SvmProb.Model
import Verif.SvmProb.Proof
import Verif.SvmProb.Props
import Verif.SvmProb.Platt
import Verif.SvmProb.PropsPlatt
import Verif.Interp.Cells
import Verif.Interp.PropsCells
import Verif.Interp.Spline
import Verif.Interp.SplineProof
import Verif.Interp.PropsSpline
import Verif.Interp.Handle
import Verif.Interp.PropsHandle
import Verif.Kmeans.Elkan
import Verif.Kmeans.ElkanProof
import Verif.Kmeans.ElkanSteps
import Verif.Kmeans.ElkanRun
import Verif.Kmeans.ElkanReal
import Verif.Kmeans.PropsElkan
import Verif.Kmeans.Lloyd
import Verif.Kmeans.LloydProof
import Verif.Kmeans.LloydRun
import Verif.Kmeans.LloydSeq
import Verif.Kmeans.PropsLloyd
import Verif.Kmeans.Macqueen
import Verif.Kmeans.MacqueenProof
import Verif.Kmeans.MacqueenRun
import Verif.Kmeans.MacqueenFirst
import Verif.Kmeans.PropsMacqueen
import Verif.Kmeans.Empty
import Verif.Kmeans.EmptyProof
import Verif.Kmeans.PropsEmpty
import Verif.Kmeans.Handling
import Verif.Kmeans.HandlingProof
import Verif.Kmeans.HandlingRun
import Verif.Kmeans.PropsHandling
import Verif.Coord.Model
import Verif.Coord.Linreg
import Verif.Coord.Spec
import Verif.Coord.LinregProof
import Verif.Coord.StepProof
import Verif.Coord.GapProof
import Verif.Coord.FixProof
import Verif.Coord.RunProof
import Verif.Coord.RunInv
import Verif.Coord.LedgerProof
import Verif.Coord.PropsGap
import Verif.Coord.PropsSteps
import Verif.Coord.PropsRun
import Verif.Moments.Model
import Verif.Moments.SumProof
import Verif.Moments.VecProof
import Verif.Moments.Spec
import Verif.Moments.DaSum
import Verif.Moments.Stats
import Verif.Moments.StatsProof
import Verif.Moments.MathProof
import Verif.Moments.PropsSum
import Verif.Moments.PropsMeans
import Verif.Moments.StdProof
import Verif.Moments.PropsStd
import Verif.Cov.Syrk
import Verif.Cov.SyrkProof
import Verif.Cov.SyrkLoop
import Verif.Cov.Model
import Verif.Cov.Proof
import Verif.Cov.Props
import Verif.BarnesHut.Model
import Verif.BarnesHut.Divide
import Verif.BarnesHut.Tree
import Verif.BarnesHut.Build
import Verif.BarnesHut.Demand
import Verif.BarnesHut.Run
import Verif.BarnesHut.Walk
import Verif.BarnesHut.RunProof
import Verif.BarnesHut.Forces
import Verif.BarnesHut.Slots
import Verif.BarnesHut.Spec
import Verif.BarnesHut.Props
import Verif.Tsne.Model
import Verif.Tsne.Lists
import Verif.Tsne.Csr
import Verif.Tsne.Row
import Verif.Tsne.Grad
import Verif.Tsne.Kernels
import Verif.Tsne.Force
import Verif.Tsne.Deriv
import Verif.Tsne.Props
import Verif.ApproxNn.Model
import Verif.ApproxNn.Spec
import Verif.ApproxNn.Assign
import Verif.ApproxNn.Add
import Verif.ApproxNn.Handle
import Verif.ApproxNn.SearchModel
import Verif.ApproxNn.Scan
import Verif.ApproxNn.Probe
import Verif.ApproxNn.Lists
import Verif.ApproxNn.Search
import Verif.ApproxNn.Blocks
import Verif.ApproxNn.Props
import Verif.ApproxNn.PropsSearch
import Verif.Logistic.Model
import Verif.Logistic.Loop
import Verif.Logistic.Spec
import Verif.Logistic.Deriv
import Verif.Logistic.Two
import Verif.Logistic.Rsc
import Verif.Logistic.Ssc
import Verif.Logistic.Mse
import Verif.Logistic.Predict
import Verif.Logistic.Safe
import Verif.Logistic.Props
import Verif.LeastSq.Props
import Verif.PairDist.Props
import Verif.KernelFn.Props
import Verif.TallSkinny.Props
import Verif.TallSkinny.PropsQr
import Verif.KnnPredict.Props
import Verif.KnnPredict.PropsTargets
import Verif.KernelPca.Props
import Verif.KernelPca.PropsState
import Verif.Pca.Props
import Verif.Pca.PropsState
import Verif.CheckData.Props
import Verif.Pca.PropsSigns
