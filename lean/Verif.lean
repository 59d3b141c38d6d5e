import Verif.Utils.Props
import Verif.Hist.Props
import Verif.Dicts.Props
import Verif.Corr.Props
import Verif.Corr.TwoProps
import Verif.Cross.Props
import Verif.Grid.Props
import Verif.Binned.Props
import Verif.Geom.Props
import Verif.Roi.Props
import Verif.Roi.StatProps
import Verif.Mask.Props
import Verif.Line.Props
import Verif.Line.PhotonProps
import Verif.Line.TailProps
import Verif.Speckle.Props
import Verif.Feature.Props
import Verif.Feature.SpecProps
import Verif.Calib.Props
import Verif.Dpc.Props
import Verif.Dpc.ReconProps
import Verif.Cdi.Props
import Verif.Snip.Props
import Verif.Snip.WindowProps
import Verif.Xrf.Props
import Verif.Xrf.FitProps
import Verif.Io.Props
import Verif.Consts.Props
import Verif.Recip.Props
import Verif.Recip.GisaxsProps
import Verif.Image.RingProps
import Verif.Image.Props
import Verif.Image.PolarProps
import Verif.Binned.CtorProps
import Verif.Line.ComptonProps
import Verif.Smooth.Props
import Verif.Stats.Props
import Verif.Hist.EdgeProps
import Verif.Speckle.NormProps
import Verif.Roi.LineProps
import Verif.Cdi.ErrProps
import Verif.Amira.Props
import Verif.Xrf.SpectrumMore
import Verif.Xrf.ResultProps
import Verif.Line.VoigtProps
import Verif.Cdi.FixedProps
import Verif.Xrf.DefaultsProps
import Verif.Corr.Scat
import Verif.Io.NetCdf
import Verif.Io.Crash
import Verif.Io.Cut
import Verif.Roi.AutoProps
import Verif.Corr.OneErr
import Verif.Cdi.SupportProps
import Verif.Consts.WrapProps
import Verif.Dicts.Repr
import Verif.Corr.Invar
import Verif.Cross.NormProps
import Verif.Grid.IntMask
import Verif.Binned.Session
import Verif.Binned.SessionProps
import Verif.Feature.Lstsq
import Verif.Calib.Blind
import Verif.Calib.BlindProps
import Verif.Calib.Center
import Verif.Calib.CenterProps
import Verif.Corr.Bounds
import Verif.Corr.Reverse
import Verif.Cross.Peak
import Verif.Cdi.Nearest
import Verif.Line.Shape
import Verif.Gens.Props
import Verif.Dpc.Fit
import Verif.Dpc.Least
import Verif.Cdi.Stop
import Verif.Binning.Agree
import Verif.FlProps
import Verif.Grid.Round
import Verif.Hist.Round
import Verif.Corr.Round
import Verif.Corr.BadFrames
import Verif.Roi.Symmetry
import Verif.Recip.Routes
import Verif.Feature.Simpson
import Verif.Speckle.Round
import Verif.Binned.Round
import Verif.Utils.Round
import Verif.Roi.Together
import Verif.Xrf.FitLaws
import Verif.FlMono
import Verif.Order.Props
import Verif.Wrap.Model
import Verif.Wrap.Props
import Verif.Wrap.Ring
import Verif.Wrap.Smooth
import Verif.Wrap.Xsvs
import Verif.Wrap.Peak
import Verif.Corr.Rings
import Verif.Speckle.Top
import Verif.Xrf.Bounds
import Verif.Corr.TwoRoundModel
import Verif.Corr.TwoRound
import Verif.Roi.AvgRound
import Verif.Roi.MeanRound
import Verif.Dpc.Scan
import Verif.Recip.Map
import Verif.FlReal
import Verif.Roi.RingsRound
import Verif.Roi.SegRound
import Verif.Hist.RoundSum
import Verif.Corr.Levels
import Verif.Grid.Laws
import Verif.Binned.Laws
import Verif.Smooth.LeastSquares
import Verif.Cross.Laws
import Verif.Cdi.Ambiguities
import Verif.Speckle.Laws
import Verif.Snip.Round
import Verif.Recip.Laws
import Verif.Dpc.Laws
import Verif.Consts.Names
import Verif.Recip.GisLaws
import Verif.Mask.Laws
import Verif.Order.Bragg
import Verif.Image.Laws
import Verif.Dicts.Wrap
import Verif.Cdi.Units
import Verif.Image.PolarLaws
import Verif.Feature.Laws
import Verif.Version.Props
import Verif.Line.Round
import Verif.Feature.RoiLaws
import Verif.Recip.Round
import Verif.Wrap.Roi
import Verif.Wrap.Centers
import Verif.Consts.Standards
import Verif.Recip.GisRound
import Verif.Image.InterpRound
import Verif.Wrap.Poisson
import Verif.Wrap.Quad
import Verif.Wrap.Edges
import Verif.Cross.Init
import Verif.Wrap.Rect
import Verif.Order.Rings
import Verif.Line.TailF
import Verif.Wrap.Channel
import Verif.Consts.Search
import Verif.Xrf.TrimLaws
import Verif.Feature.Largest
import Verif.Stats.Laws
import Verif.Roi.MeanLaws
import Verif.Line.PoissonF
import Verif.Line.NbinomF
import Verif.Roi.PixLaws
import Verif.Mask.PrepLaws
import Verif.Dpc.ReduceLaws
import Verif.Roi.LabelLaws
import Verif.Feature.HeightLaws
import Verif.Line.ScatterLaws
import Verif.Utils.EdgeLaws
import Verif.Recip.GisAngles
import Verif.Dicts.Contains
