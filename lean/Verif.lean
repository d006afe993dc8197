import Verif.Align.Cases
import Verif.Align.Lemmas
import Verif.Align.LemmasAxes
import Verif.Align.Model
import Verif.Align.Props
import Verif.Align.PropsPad
import Verif.Align.Spec
import Verif.AlignFFT.Cases
import Verif.AlignFFT.Lemmas
import Verif.AlignFFT.Model
import Verif.AlignFFT.Props
import Verif.AlignFFT.Props2
import Verif.AlignSimple.Cases
import Verif.AlignSimple.Centroid
import Verif.AlignSimple.Model
import Verif.AlignSimple.Props
import Verif.Axis.Lemmas
import Verif.Axis.LimitsProps
import Verif.Axis.Model
import Verif.Axis.Props
import Verif.Bliss.FitProps
import Verif.Bliss.Lemmas
import Verif.Bliss.Model
import Verif.Bliss.PreProps
import Verif.Bliss.Spec
import Verif.Browse.Model
import Verif.Browse.Props
import Verif.Browse.Props2
import Verif.Cache.DictProps
import Verif.Cache.Model
import Verif.Cache.ScopeProps
import Verif.Center.Cases
import Verif.Center.Model
import Verif.Center.Props
import Verif.Common.Sort
import Verif.Compound.Elemental
import Verif.Compound.Lemmas
import Verif.Compound.Lemmas2
import Verif.Compound.Model
import Verif.Compound.Props
import Verif.Compound.Spec
import Verif.Crop.Lemmas
import Verif.Crop.Lemmas2
import Verif.Crop.Lemmas3
import Verif.Crop.Model
import Verif.Crop.Props
import Verif.CrossSection.Model
import Verif.CrossSection.Props
import Verif.CrossSection.Spec
import Verif.Csutils.Model
import Verif.Csutils.Props
import Verif.Detector.Lemmas
import Verif.Detector.Model
import Verif.Detector.Props
import Verif.Detector.PymcaProps
import Verif.Detector.Spec
import Verif.Diode.CalibProps
import Verif.Diode.ChargeLemmas
import Verif.Diode.ChargeProps
import Verif.Diode.DarkProps
import Verif.Diode.Gain
import Verif.Diode.Lemmas
import Verif.Diode.Median
import Verif.Diode.Model
import Verif.Diode.Props
import Verif.Diode.Spec
import Verif.EdfHead.Cases
import Verif.EdfHead.Model
import Verif.EdfHead.Props
import Verif.EdfHead.Spec
import Verif.EmSpectrum.Model
import Verif.EmSpectrum.Props
import Verif.Excel.Model
import Verif.Excel.Props
import Verif.Expression.Cases
import Verif.Expression.Eval
import Verif.Expression.Find
import Verif.Expression.Lemmas
import Verif.Expression.Model
import Verif.Expression.Parse
import Verif.Expression.Props
import Verif.Expression.Rename
import Verif.Expression.Spec
import Verif.FFSim.Model
import Verif.FFSim.Noise
import Verif.FFSim.Props
import Verif.Factory.Cases
import Verif.Factory.Lemmas
import Verif.Factory.Lemmas2
import Verif.Factory.Lemmas3
import Verif.Factory.Lemmas4
import Verif.Factory.Model
import Verif.Factory.Props
import Verif.Factory.Spec
import Verif.Fit.CovLemmas
import Verif.Fit.Covariance
import Verif.Fit.Cramer
import Verif.Fit.Lemmas
import Verif.Fit.Model
import Verif.Fit.Props
import Verif.Fit.Spec
import Verif.FitCfg.Active
import Verif.FitCfg.FitProps
import Verif.FitCfg.Lemmas
import Verif.FitCfg.Model
import Verif.FitCfg.Props
import Verif.FitCfg.Spec
import Verif.Formula.Element
import Verif.Formula.ElementProps
import Verif.Formula.Eval
import Verif.Formula.Lemmas
import Verif.Formula.Longest
import Verif.Formula.Model
import Verif.Formula.Props
import Verif.Formula.Spec
import Verif.Ft.Cases
import Verif.Ft.DftLemmas
import Verif.Ft.Lemmas
import Verif.Ft.Model
import Verif.Ft.Props
import Verif.Ft.PropsDft
import Verif.Ft.PropsDft2
import Verif.Fullfield.LibProps
import Verif.Fullfield.Model
import Verif.Fullfield.MoreProps
import Verif.Fullfield.NormProps
import Verif.Fullfield.Props
import Verif.Fullfield.Spec
import Verif.Geometry.Model
import Verif.Geometry.Props
import Verif.Geometry.Spec
import Verif.Grid.GridProps
import Verif.Grid.GroupProps
import Verif.Grid.Model
import Verif.Grid.MoreProps
import Verif.Grid.TaskLemmas
import Verif.Grid.TaskProps
import Verif.H5.Ctx
import Verif.H5.CtxProps
import Verif.H5.Modes
import Verif.H5.ModesProps
import Verif.H5.Retry
import Verif.H5.RetryProps
import Verif.Hashing.Inj
import Verif.Hashing.Lemmas
import Verif.Hashing.Model
import Verif.Hashing.Props
import Verif.Hashing.Spec
import Verif.Indexing.AxesLemmas
import Verif.Indexing.AxisLemmas
import Verif.Indexing.AxisSplit
import Verif.Indexing.Core
import Verif.Indexing.CoreAdv
import Verif.Indexing.ExpandLemmas
import Verif.Indexing.GetitemLemmas
import Verif.Indexing.Model
import Verif.Indexing.MoveLemmas
import Verif.Indexing.NewaxisLemmas
import Verif.Indexing.ProbeLemmas
import Verif.Indexing.Props
import Verif.Indexing.ShapeLemmas
import Verif.Indexing.ShapeProps
import Verif.Indexing.Spec
import Verif.IntBase.Lemmas
import Verif.IntBase.Model
import Verif.IntBase.Props
import Verif.Interact.Model
import Verif.Interact.Props
import Verif.Jobs.Model
import Verif.Jobs.Props
import Verif.Lazy.Model
import Verif.Lazy.Props
import Verif.LineShape.Lemmas
import Verif.LineShape.Model
import Verif.LineShape.Profile
import Verif.LineShape.Props
import Verif.LineShape.Spec
import Verif.Linop.ClipLemmas
import Verif.Linop.FLemmas
import Verif.Linop.Model
import Verif.Linop.Props
import Verif.ListTools.Lemmas
import Verif.ListTools.Model
import Verif.ListTools.Perm
import Verif.ListTools.Props
import Verif.ListTools.Spec
import Verif.LocalFs.Cases
import Verif.LocalFs.Lemmas
import Verif.LocalFs.Model
import Verif.LocalFs.Move
import Verif.LocalFs.Props
import Verif.Lut.Lemmas
import Verif.Lut.Model
import Verif.Lut.Props
import Verif.Lut.Spec
import Verif.Mca.Format
import Verif.Mca.FormatProps
import Verif.Mca.Lemmas
import Verif.Mca.Model
import Verif.Mca.Props
import Verif.Mca.Spec
import Verif.Merge.Lemmas
import Verif.Merge.Model
import Verif.Merge.PlanProps
import Verif.Merge.Props
import Verif.MergeTask.Model
import Verif.MergeTask.PlanLemmas
import Verif.MergeTask.TaskProps
import Verif.MergeTask.TreeProps
import Verif.Multilayer.CompositionProps
import Verif.Multilayer.ConfigProps
import Verif.Multilayer.Lemmas
import Verif.Multilayer.Lemmas2
import Verif.Multilayer.LinkProps
import Verif.Multilayer.Model
import Verif.Multilayer.Props
import Verif.Multilayer.RefineProps
import Verif.Multilayer.Sample
import Verif.Multilayer.SampleLemmas
import Verif.Multilayer.SampleProps
import Verif.Multilayer.SampleSpec
import Verif.Multilayer.Spec
import Verif.NXdata.Model
import Verif.NXdata.Props
import Verif.Naming.Lemmas
import Verif.Naming.Model
import Verif.Naming.Props
import Verif.Naming.Spec
import Verif.Noise.Model
import Verif.Noise.Props
import Verif.Noise.Spec
import Verif.Numpy.Index
import Verif.Numpy.Lemmas
import Verif.NxFile.Model
import Verif.NxFile.Props
import Verif.Outlier.Model
import Verif.Outlier.Props
import Verif.Overlay.Model
import Verif.Overlay.Props
import Verif.Overlay.Ternary
import Verif.ParamTree.Lemmas
import Verif.ParamTree.Model
import Verif.ParamTree.Props
import Verif.ParamTree.Spec
import Verif.ParamTree.SubNode
import Verif.ParamTree.TreeProps
import Verif.Paths.Cases
import Verif.Paths.Device
import Verif.Paths.Lemmas
import Verif.Paths.Lemmas2
import Verif.Paths.Model
import Verif.Paths.Props
import Verif.Paths.Spec
import Verif.Pipeline.Cases
import Verif.Pipeline.Model
import Verif.Pipeline.Props
import Verif.Pipeline.Props2
import Verif.Pipeline.Props3
import Verif.Pipeline.Spec
import Verif.Polar.Cases
import Verif.Polar.Lemmas
import Verif.Polar.Model
import Verif.Polar.Props
import Verif.Polar.PropsMueller
import Verif.Polar.PropsParams
import Verif.Process.Lookup
import Verif.Process.LookupProps
import Verif.Process.Task
import Verif.Process.TaskProps
import Verif.Py.Basic
import Verif.Py.Dict
import Verif.Py.Regex
import Verif.Pymca.Lemmas
import Verif.Pymca.Material
import Verif.Pymca.Props
import Verif.Pymca.Settings
import Verif.Pymca.SettingsProps
import Verif.Pymca.Spec
import Verif.Quadric.Lsq
import Verif.Quadric.LsqProps
import Verif.Quadric.Model
import Verif.Quadric.Props
import Verif.Qxrf.Data
import Verif.Qxrf.DataProps
import Verif.Qxrf.DeviceProps
import Verif.Qxrf.Model
import Verif.Qxrf.Props
import Verif.Qxrf.Spec
import Verif.Qxrf.StepProps
import Verif.Resample.GridProps
import Verif.Resample.InterpProps
import Verif.Resample.Model
import Verif.Resample.MoreProps
import Verif.Resample.Spec
import Verif.Resample.TaskProps
import Verif.Roi.Model
import Verif.Roi.Props
import Verif.Scan.Cases
import Verif.Scan.Cmd
import Verif.Scan.CmdCases
import Verif.Scan.CmdLemmas
import Verif.Scan.CmdLemmas2
import Verif.Scan.CmdLemmas3
import Verif.Scan.CmdProps
import Verif.Scan.CmdSpec
import Verif.Scan.Dims
import Verif.Scan.Model
import Verif.Scan.Props
import Verif.Scan.Spec
import Verif.Scene.AxesProps
import Verif.Scene.Image
import Verif.Scene.ImageProps
import Verif.Scene.Model
import Verif.Scene.Props
import Verif.Scene.Spec
import Verif.Signals.CalmInv
import Verif.Signals.Lemmas
import Verif.Signals.Model
import Verif.Signals.Props
import Verif.Signals.Spec
import Verif.Slicing.Lemmas
import Verif.Slicing.Model
import Verif.Slicing.Props
import Verif.Slicing.Spec
import Verif.SpecFile.Model
import Verif.SpecFile.Props
import Verif.Spectrum.AddProps
import Verif.Spectrum.Alias
import Verif.Spectrum.Compton
import Verif.Spectrum.GroupProps
import Verif.Spectrum.InfoProps
import Verif.Spectrum.Model
import Verif.Spectrum.Props
import Verif.Spectrum.Shells
import Verif.Spectrum.ShellsProps
import Verif.Spectrum.Spec
import Verif.Stack.Lemmas
import Verif.Stack.Model
import Verif.Stack.Props
import Verif.Stack.Spec
import Verif.Stoich.Model
import Verif.Stoich.Props
import Verif.Stoich.Spec
import Verif.TextLog.Model
import Verif.TextLog.Props
import Verif.Transform.Model
import Verif.Transform.Props
import Verif.Transform.Spec
import Verif.TruncNorm.Model
import Verif.TruncNorm.Props
import Verif.Units.Model
import Verif.Units.Props
import Verif.Xanes.InfoProps
import Verif.Xanes.Lemmas
import Verif.Xanes.Model
import Verif.Xanes.Props
import Verif.Xanes.Spec
import Verif.XasPipe.Cases
import Verif.XasPipe.Lemmas
import Verif.XasPipe.Model
import Verif.XasPipe.MoreProps
import Verif.XasPipe.NoSync
import Verif.XasPipe.Props
import Verif.XasPipe.Spec
import Verif.XasPipe.Xia
import Verif.XasPipe.XiaProps
import Verif.Xia.Cases
import Verif.Xia.Lemmas
import Verif.Xia.LemmasGroup
import Verif.Xia.Model
import Verif.Xia.Props
import Verif.Xia.PropsGroup
import Verif.Xia.PropsGroup2
import Verif.Xia.PropsLabel
import Verif.Xia.Spec
import Verif.XiaConfig.Cases
import Verif.XiaConfig.Model
import Verif.XiaConfig.Props
import Verif.XiaConfig.Spec
import Verif.XiaNx.Model
import Verif.XiaNx.Props
import Verif.XiaRead.Cases
import Verif.XiaRead.Lemmas
import Verif.XiaRead.Model
import Verif.XiaRead.Props
import Verif.XiaRead.Props2
import Verif.XiaRead.Spec
import Verif.XiaStats.Cases
import Verif.XiaStats.Lemmas
import Verif.XiaStats.Model
import Verif.XiaStats.Props
import Verif.Xmimsim.Model
import Verif.Xmimsim.Props
import Verif.XrfTask.AddLemmas
import Verif.XrfTask.AddProps
import Verif.XrfTask.DetProps
import Verif.XrfTask.ExportLemmas
import Verif.XrfTask.ExportProps
import Verif.XrfTask.LazyLemmas
import Verif.XrfTask.LazyProps
import Verif.XrfTask.Model
import Verif.XrfTask.StackLemmas
import Verif.XrfTask.StackProps
import Verif.XrfTask.TaskProps
import Verif.Xrmc.FrameProps
import Verif.Xrmc.Frames
import Verif.Xrmc.LoopProps
import Verif.Xrmc.Loops
