import Verif.Domain.Props
import Verif.Traversal.Props
import Verif.Dist.Props
import Verif.Map.Props
import Verif.Map.SubsetProps
import Verif.Distributed.BlkProps
import Verif.Layout.Props
import Verif.Views.Props
import Verif.Dda.Props
import Verif.Assign.Props
import Verif.Expr.Props
import Verif.Chain.Props
import Verif.Random.Props
import Verif.Filter.Props
import Verif.Signal.Props
import Verif.Select.Props
import Verif.Reduce.Props
import Verif.Matvec.Props
import Verif.Storage.History
import Verif.Coherence.Props
import Verif.Refcount.Props
import Verif.Library.Props
import Verif.HugePage.Props
import Verif.Aligned.Props
import Verif.Serial.Props
import Verif.Dft.Props
import Verif.Toep.Props
import Verif.Vmmul.Props
import Verif.Blas.Props
import Verif.Solver.Props
import Verif.Window.Props
import Verif.Fftw.Props
import Verif.Svd.Props
import Verif.Rbo.Props
import Verif.Py.Props
import Verif.Ssar.Props
import Verif.Wav.Props
import Verif.Io.Props
import Verif.Cv.Props
import Verif.Prod.Props
import Verif.Elem.Props
import Verif.Hpec.Props
import Verif.Util.Props
import Verif.Spmd.Props
import Verif.ViewProg.Props
import Verif.Turn.Props
import Verif.Bench.Props
import Verif.Ocl.Props
import Verif.Dsp.Props
import Verif.Mpi.Props
import Verif.Access.Props
import Verif.RtFmt.Props
import Verif.Lazy.Props
import Verif.PyMath.Props
import Verif.ParView.Props
import Verif.UserElt.Props
import Verif.PySig.Props
import Verif.Persist.Props
import Verif.Radar.Props
import Verif.Custom.Props
import Verif.TestRef.Props
import Verif.BenchOps.Props
import Verif.DomainN.Props
import Verif.Vocab.Props
import Verif.PyMap.Props
import Verif.BenchCorr.Props
import Verif.ProdVar.Props
import Verif.BenchConv.Props
import Verif.MpiSend.Props
