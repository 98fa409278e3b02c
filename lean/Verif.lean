import Verif.SimplexProps
import Verif.SynthWeightsProps
import Verif.SdidProps
import Verif.WithinProps
import Verif.OlsProps
import Verif.Did2x2Props
import Verif.VcovProps
import Verif.InferenceProps
import Verif.ParamsProps
import Verif.FormulaProps
import Verif.CSProps
import Verif.CSAggProps
import Verif.CSRecodeProps
import Verif.BootStatsProps
import Verif.BootWeightsProps
import Verif.BaconProps
import Verif.BaconTwfeProps
import Verif.SunAbProps
import Verif.SunAbIdProps
import Verif.TripleDiffProps
import Verif.MultiPeriodProps
import Verif.MultiFit
import Verif.MultiFitProps
import Verif.MultiFitControls
import Verif.HonestDidProps
import Verif.HonestSdProps
import Verif.PretrendsProps
import Verif.PowerProps
import Verif.Diagnostics
import Verif.DiagnosticsProps
import Verif.PermValidProps
import Verif.WildBoot
import Verif.WildBootProps
import Verif.Prep
import Verif.PrepProps
import Verif.PrepRank
import Verif.PrepRankProps
import Verif.PrepRankScoresProps
import Verif.PrepValidate
import Verif.PrepValidateProps
import Verif.Results
import Verif.ResultsProps
import Verif.Backend
import Verif.BackendProps
import Verif.Trop
import Verif.TropProps
import Verif.TropFit
import Verif.TropFitProps
import Verif.TropShiftProps
import Verif.TropJoint
import Verif.TropJointProps
import Verif.TropJointRust
import Verif.TropJointRustProps
import Verif.TropJointRustFloatProps
import Verif.TropJointRustCaseProps
import Verif.TropJointRustBootProps
import Verif.TropBoot
import Verif.TropBootPermProps
import Verif.TropBootProps
import Verif.TwfeWarn
import Verif.TwfeWarnProps
import Verif.SunAbCsProps
import Verif.SunAbCsAggProps
import Verif.SunAbCsOverallProps
import Verif.SunAbCsDemoProps
import Verif.BlockAgreeProps
import Verif.Reports
import Verif.ReportsProps
import Verif.TripleFit
import Verif.TripleFitProps
import Verif.DatasetCacheProps
import Verif.TropJointShiftProps
import Verif.TropJointMoreProps
import Verif.TropJointCaseProps
import Verif.TropRust
import Verif.TropRustProps
import Verif.TropTightProps
import Verif.SimPower
import Verif.SimPowerProps
import Verif.TropPermProps
import Verif.Trends
import Verif.TrendsProps
import Verif.TrendsEquivProps
import Verif.TrendsChangeProps
import Verif.TrendsRobustProps
import Verif.Dgp
import Verif.DgpProps
import Verif.DgpDidProps
import Verif.DgpEventProps
import Verif.DgpStagProps
import Verif.DgpDddProps
import Verif.DgpFactorProps
import Verif.CSBoot
import Verif.CSBootProps
import Verif.SdidFit
import Verif.SdidFitProps
import Verif.SdidShiftProps
import Verif.SdidVarProps
import Verif.SdidScaleProps
import Verif.TropScaleProps
import Verif.TropJointScaleProps
import Verif.DidScaleProps
import Verif.TropRowOrderProps
import Verif.LinRegScale
import Verif.TripleScaleProps
import Verif.SdidCov
import Verif.SdidCovProps
import Verif.SdidReportProps
import Verif.Plot
import Verif.PlotProps
import Verif.LinReg
import Verif.LinRegProps
import Verif.LinRegTwin
import Verif.DidFit
import Verif.DidFitProps
import Verif.Logit
import Verif.LogitProps
import Verif.DatasetsProps
import Verif.DatasetsEffects
import Verif.PowerCurveProps
import Verif.PretrendsReportProps
import Verif.PlotMoreProps
import Verif.CSShiftProps
import Verif.BaconShiftProps
import Verif.SunAbShiftProps
import Verif.CSScaleProps
import Verif.BaconScaleProps
import Verif.SunAbScaleProps
import Verif.InferenceScaleProps
import Verif.CSLocalProps
import Verif.TropBoot2
import Verif.TropBoot2Props
import Verif.Svd
import Verif.SvdProps
import Verif.SvdQrProps
import Verif.SvdExists
import Verif.TropJointExtraProps
import Verif.CSRows
import Verif.CSRowsProps
import Verif.ReportsLooProps
import Verif.RobustVcov
import Verif.RobustVcovProps
import Verif.RowOrderProps
import Verif.TwfeFit
import Verif.TwfeFitProps
import Verif.RowOrderFit
import Verif.TropCv
import Verif.TropCvProps
import Verif.RowOrderTriple
import Verif.BaconRows
import Verif.BaconRowsProps
import Verif.LinRegRank
import Verif.DidFull
import Verif.DidFullProps
import Verif.DidFullControls
import Verif.DidFullMore
import Verif.DidFullRows
import Verif.DidFullDemo
import Verif.LinRegSpan
import Verif.LinRegPair
import Verif.TwfeFitRank
import Verif.MultiFitRank
import Verif.TropCvTrace
import Verif.WildLin
import Verif.WildLinProps
import Verif.WildLinMore
import Verif.WildTwfe
import Verif.WildTwfeProps
import Verif.HonestSens
import Verif.HonestUnitsProps
import Verif.DidSwapProps
import Verif.DidSwapDemo
import Verif.TripleSwapProps
import Verif.TripleSwapCov
import Verif.MultiSwapProps
import Verif.WildSwapProps
import Verif.TropSignProps
import Verif.SdidSignProps
import Verif.SoftSvd
import Verif.SoftSvdProps
import Verif.SoftSvdUseProps
import Verif.SoftSvdProxProps
import Verif.TropDescentProps
import Verif.HonestSensProps
import Verif.TropJointDescentProps
import Verif.SynthRateProps
import Verif.TropInfProps
