import Verif.Lemmas.Binning
import Verif.Lemmas.Cache
import Verif.Lemmas.ChanEval
import Verif.Lemmas.ChanLemmas
import Verif.Lemmas.Finite
import Verif.Lemmas.Float64
import Verif.Lemmas.Frames
import Verif.Lemmas.HistLemmas
import Verif.Lemmas.Invariants
import Verif.Lemmas.MatLemmas
import Verif.Lemmas.MctEval
import Verif.Lemmas.Near
import Verif.Lemmas.ParamOnly
import Verif.Lemmas.Poisson
import Verif.Lemmas.PoissonClt
import Verif.Lemmas.PoissonPull
import Verif.Lemmas.Reach
import Verif.Lemmas.Reach2
import Verif.Lemmas.RoundErr
import Verif.Lemmas.TmplCovLemmas
import Verif.Lemmas.TmplLemmas
import Verif.Lemmas.TmplRunLemmas
import Verif.Lemmas.Total
import Verif.Lemmas.ToyLemmas
import Verif.Model.Alias
import Verif.Model.Channel
import Verif.Model.Fitter
import Verif.Model.Fl
import Verif.Model.Hesse
import Verif.Model.Hist
import Verif.Model.Legacy
import Verif.Model.LegacySys
import Verif.Model.Mct
import Verif.Model.Minimizer
import Verif.Model.Np
import Verif.Model.Plot
import Verif.Model.Round
import Verif.Model.RoundChannel
import Verif.Model.RoundEdges
import Verif.Model.RoundMct
import Verif.Model.RoundStats
import Verif.Model.Stats
import Verif.Model.Sys
import Verif.Model.Template
import Verif.Model.TmplRun
import Verif.Model.Toy
import Verif.Model.Utility
import Verif.Props.AliasProps
import Verif.Props.AliasProps2
import Verif.Props.ChannelProps
import Verif.Props.ChannelProps2
import Verif.Props.ChannelProps3
import Verif.Props.CombEx
import Verif.Props.CombEx2
import Verif.Props.CombProps
import Verif.Props.CombProps2
import Verif.Props.Consist
import Verif.Props.Consist2
import Verif.Props.CovEvents
import Verif.Props.CoverProps
import Verif.Props.CurvProps
import Verif.Props.CurvProps2
import Verif.Props.ErrEx
import Verif.Props.ErrProps
import Verif.Props.ExactProps
import Verif.Props.ExactProps2
import Verif.Props.ExactProps3
import Verif.Props.ExactProps4
import Verif.Props.ExactProps5
import Verif.Props.Example
import Verif.Props.FitterProps
import Verif.Props.FitterProps10
import Verif.Props.FitterProps11
import Verif.Props.FitterProps12
import Verif.Props.FitterProps13
import Verif.Props.FitterProps14
import Verif.Props.FitterProps15
import Verif.Props.FitterProps16
import Verif.Props.FitterProps17
import Verif.Props.FitterProps2
import Verif.Props.FitterProps3
import Verif.Props.FitterProps4
import Verif.Props.FitterProps5
import Verif.Props.FitterProps6
import Verif.Props.FitterProps7
import Verif.Props.FitterProps8
import Verif.Props.FitterProps9
import Verif.Props.HesseProps
import Verif.Props.HistMerge
import Verif.Props.HistMerge2
import Verif.Props.HistMerge3
import Verif.Props.HistMerge4
import Verif.Props.HistProps
import Verif.Props.HistProps2
import Verif.Props.HistProps3
import Verif.Props.HistProps4
import Verif.Props.HistProps5
import Verif.Props.LegacyProps
import Verif.Props.LegacyProps2
import Verif.Props.LegacySysProps
import Verif.Props.LegacySysProps2
import Verif.Props.LegacySysProps3
import Verif.Props.LegacySysProps4
import Verif.Props.LegacySysProps5
import Verif.Props.LegacySysProps6
import Verif.Props.LegacySysProps7
import Verif.Props.LumiEx
import Verif.Props.LumiProg
import Verif.Props.LumiProps
import Verif.Props.MctProps
import Verif.Props.MctProps10
import Verif.Props.MctProps11
import Verif.Props.MctProps12
import Verif.Props.MctProps13
import Verif.Props.MctProps14
import Verif.Props.MctProps15
import Verif.Props.MctProps16
import Verif.Props.MctProps17
import Verif.Props.MctProps18
import Verif.Props.MctProps19
import Verif.Props.MctProps2
import Verif.Props.MctProps20
import Verif.Props.MctProps21
import Verif.Props.MctProps22
import Verif.Props.MctProps23
import Verif.Props.MctProps24
import Verif.Props.MctProps3
import Verif.Props.MctProps4
import Verif.Props.MctProps5
import Verif.Props.MctProps6
import Verif.Props.MctProps7
import Verif.Props.MctProps8
import Verif.Props.MctProps9
import Verif.Props.MergeEx
import Verif.Props.MergeProps
import Verif.Props.MinimizerProps
import Verif.Props.PlotProps
import Verif.Props.PlotProps2
import Verif.Props.PullEx
import Verif.Props.PullProps
import Verif.Props.RoundIds
import Verif.Props.RoundProps
import Verif.Props.RoundProps10
import Verif.Props.RoundProps11
import Verif.Props.RoundProps2
import Verif.Props.RoundProps3
import Verif.Props.RoundProps4
import Verif.Props.RoundProps5
import Verif.Props.RoundProps6
import Verif.Props.RoundProps7
import Verif.Props.RoundProps8
import Verif.Props.RoundProps9
import Verif.Props.ScaleProps
import Verif.Props.ScaleProps2
import Verif.Props.StatsProps
import Verif.Props.StatsProps2
import Verif.Props.TemplateProps
import Verif.Props.TemplateProps2
import Verif.Props.TemplateProps3
import Verif.Props.ToyProps
import Verif.Props.ToyProps2
import Verif.Props.ToyProps3
import Verif.Props.ToyStat
import Verif.Props.ToyStat2
import Verif.Props.ToyStat3
import Verif.Props.ToyStat4
import Verif.Props.ToyStat5
import Verif.Props.ToyStat6
import Verif.Props.ToyStat7
import Verif.Props.UtilityProps
import Verif.Spec
