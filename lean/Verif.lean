import Verif.Props.StateLayoutProps
import Verif.Props.TriangulatedProps
import Verif.Props.MeasurementProps
import Verif.Props.IngestProps
import Verif.Props.ValidateProps
import Verif.Props.KwargsProps
import Verif.Props.CallbackCountProps
import Verif.Props.CallbackColumnsProps
import Verif.Props.CallbackIndexProps
import Verif.Props.PackProps
import Verif.Props.OutlierProps
import Verif.Props.OptimizeReportProps
import Verif.Props.SensorLinksProps
import Verif.Props.LensNameProps
import Verif.Props.Calc
import Verif.Props.SplineProps
import Verif.Props.SplineProjectProps
import Verif.Props.CameraProps
import Verif.Props.OpenCVProps
import Verif.Props.CahvorProps
import Verif.Props.AutodiffProps
import Verif.Props.PoseProps
import Verif.Props.RodriguesProps
import Verif.Props.RotateProps
import Verif.Props.RodriguesInvProps
import Verif.Props.RodriguesGradProps
import Verif.Props.ComposeRProps
import Verif.Props.PoseRtProps
import Verif.Props.ProjectProps
import Verif.Props.ProjectLensProps
import Verif.Props.CahvoreProps
import Verif.Props.ProjectApiProps
import Verif.Props.UnprojectProps
import Verif.Props.TriangulateProps
import Verif.Props.TriangulateAngleProps
import Verif.Props.TriangulateMidProps
import Verif.Props.TriangulateGradProps
import Verif.Props.TriangulateRayGradProps
import Verif.Props.TriangulateErrorProps
import Verif.Props.TriangulateLindGradProps
import Verif.Props.StereoRangeProps
import Verif.Props.StereoRectProps
import Verif.Props.StereoFovProps
import Verif.Props.StereoMapProps
import Verif.Props.ModelFileProps
import Verif.Props.ModelIOProps
import Verif.Props.ModelWriteProps
import Verif.Props.ColorMapProps
import Verif.Props.ImageIOProps
import Verif.Props.ImageSaveProps
import Verif.Props.ImageLoadProps
import Verif.Props.LensTotalProps
import Verif.Props.JacobianParamsProps
import Verif.Props.JacobianRowsProps
import Verif.Props.JacobianProps
import Verif.Props.JacobianTriProps
import Verif.Props.JacobianAllProps
import Verif.Props.ProcrustesProps
import Verif.Props.UncertaintyProps
import Verif.Props.UncertaintyExample
import Verif.Props.PropagateProps
import Verif.Props.PropagateSummaryProps
import Verif.Props.PropagateExamples
import Verif.Props.PropagateSigmaProps
import Verif.Props.ProjUncMain
import Verif.Props.ProjUncInfinity
import Verif.Props.ProjUncAvail
import Verif.Props.ProjUncExample
import Verif.Props.CamModelPoseProps
import Verif.Props.CamModelInputs
import Verif.Props.CamModelProps
import Verif.Props.PrintG10Props
import Verif.Props.PyLitProps
import Verif.Props.PyReadProps
import Verif.Props.PyModelProps
import Verif.Props.PyRoundProps
import Verif.Props.PyCProps
import Verif.Props.PyExampleProps
import Verif.Props.CahvorFileProps
import Verif.Props.RosFileProps
import Verif.Props.QuaternionProps
import Verif.Props.ImageTransformProps
import Verif.Props.PinholeFitProps
import Verif.Props.UnprojectPyProps
import Verif.Props.TriPyRay
import Verif.Props.TriPyGeom
import Verif.Props.TriPyCols
import Verif.Props.TriPyMove
import Verif.Props.TriPyDb
import Verif.Props.TriPyTotal
import Verif.Props.TriPyCov
import Verif.Props.TriangulatePyProps
import Verif.Props.TriPyPoints
import Verif.Props.TriPyAvail
import Verif.Props.TriPyExample
import Verif.Props.SampleImagerProps
import Verif.Props.ModelDiffProps
import Verif.Props.ModelDiffExample
import Verif.Props.ProjectionDiffProps
import Verif.Props.ProjectionDiffFit
import Verif.Props.ProjectionDiffExample
import Verif.Props.PyLegacyProps
import Verif.Props.TriPyCalib
import Verif.Props.StereoPairProps
import Verif.Props.ResolutionProps
import Verif.Props.FrameNumberProps
import Verif.Props.CornersProps
import Verif.Props.CornersRead
import Verif.Props.CornersOut
import Verif.Props.CornersFinal
import Verif.Props.SvdExists
import Verif.Props.SeedFinal
import Verif.Props.PnpFinal
import Verif.Props.PerfectProps
import Verif.Props.KalibrProps
import Verif.Props.RotateCornersProps
import Verif.Props.CullCornersProps
import Verif.Props.IndexApiProps
import Verif.Props.IngestStateProps
import Verif.Props.SynthesizeProps
import Verif.Props.MatchFeatureProps
import Verif.Props.OptimizeSolveProps
import Verif.Props.OptimizeSolveExamples
import Verif.Props.PolylineProps
import Verif.Props.PlyProps
import Verif.Props.CalibrateCamerasProps
import Verif.Props.StereoPyProps
import Verif.Props.ConvertLensProps
import Verif.Props.ValidRegionProps
import Verif.Props.ValidRegionExamples
import Verif.Props.ReprojectImageProps
import Verif.Props.ReprojectImageExamples
import Verif.Props.PointToolsProps
import Verif.Props.PointToolsFov
import Verif.Props.FormatToolsProps
import Verif.Props.FormatToolsMain
import Verif.Props.FormatToolsExamples
import Verif.Props.TriangulateToolProps
import Verif.Props.TriangulateToolPose
import Verif.Props.TriangulateToolExamples
import Verif.Props.ConvertLensMore
import Verif.Props.StereoToolMain
import Verif.Props.ReprojectImageMore
import Verif.Props.SortedEigProps
import Verif.Props.ShowResidualsProps
import Verif.Props.ShowGeometryProps
import Verif.Props.ResidualPlotsProps
import Verif.Props.PolygonDiffProps
import Verif.Props.VsDistanceProps
import Verif.Props.OffPinholeProps
import Verif.Props.SplinedCorrectionProps
import Verif.Props.ShowRegionProps
import Verif.Props.GeometryToolProps
import Verif.Props.BoundariesProps
import Verif.Props.PointPoseProps
import Verif.Props.LinksPythonProps
import Verif.Props.AlignedPythonProps
import Verif.Props.OverlayProps
import Verif.Props.UncertaintyPlotProps
import Verif.Props.DiffRegionProps
import Verif.Props.StereoPairPlotProps
