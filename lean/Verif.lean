import Verif.Props.Assign
import Verif.Props.Murty
import Verif.Props.Bfm
import Verif.Props.KShortest
import Verif.Props.KTwo
import Verif.Props.KMissing
import Verif.Props.KInf
import Verif.Props.KLayout
import Verif.Props.Phd
import Verif.Props.Gating
import Verif.Props.Glmb
import Verif.Props.GlmbExtract
import Verif.Props.GlmbHist
import Verif.Props.Cphd
import Verif.Props.CphdMore
import Verif.Props.GlmbBayes
import Verif.Props.GlmbBest
import Verif.Props.SaveLoad
import Verif.Props.Snapshot
import Verif.Props.Gibbs
import Verif.Props.Jglmb
import Verif.Props.Ospa
import Verif.Props.AStar
import Verif.Props.AStarGiveUp
import Verif.Props.Density
import Verif.Props.Waypoints
import Verif.Model.Elqr
import Verif.Spec.Elqr
import Verif.Proofs.Elqr
import Verif.Proofs.ElqrIter
import Verif.Props.Elqr
import Verif.Props.ElqrIter
import Verif.Model.Quadratize
import Verif.Props.Quadratize
import Verif.Spec.ElqrSweep
import Verif.Props.ElqrSweep
import Verif.Spec.Rearr
import Verif.Props.ElqrOrder
import Verif.Model.Mixture
import Verif.Spec.StudentT
import Verif.Proofs.StudentT
import Verif.Props.Mixture
import Verif.Spec.Smc
import Verif.Props.Smc
import Verif.Props.SmcJoint
import Verif.Props.SmcNever
import Verif.Spec.Predict
import Verif.Props.GlmbPredict
import Verif.Props.GlmbZero
import Verif.Spec.Gibbs
import Verif.Props.GibbsLaw
import Verif.Spec.JointExact
import Verif.Props.JointExact
import Verif.Props.GlmbExact
import Verif.Props.GlmbMoreUpdates
import Verif.Props.GlmbClutter
import Verif.Props.GlmbSensor
import Verif.Props.PhdRobust
import Verif.Props.GibbsStable
import Verif.Props.AssignStable
import Verif.Props.BfmStable
import Verif.Props.MurtyStable
import Verif.Props.PhdUnexplained
import Verif.Props.PhdCleanupMass
import Verif.Props.GlmbRobust
import Verif.Props.EmptyScan
import Verif.Props.CphdForget
import Verif.Props.GlmbForget
import Verif.Props.GlmbOrder
import Verif.Props.OspaTriangle
import Verif.Props.OspaStable
import Verif.Props.Ospa2Stable
import Verif.Props.PhdHistory
import Verif.Props.Horizon
import Verif.Spec.Plot
import Verif.Model.Plot
import Verif.Props.Plot
import Verif.Proofs.PlotLabels
import Verif.Props.PlotLabels
import Verif.Props.PlotMore
import Verif.Props.PlotOther
import Verif.Props.OspaMono
import Verif.Props.CphdHistory
import Verif.Props.PhdOrder
import Verif.Props.CphdOrder
import Verif.Spec.Track
import Verif.Props.GlmbTrack
import Verif.Props.GlmbDistinct
import Verif.Props.GlmbCleanupError
import Verif.Props.JglmbTrack
import Verif.Props.GlmbReport
import Verif.Props.JointRun
import Verif.Props.PhdCrash
import Verif.Props.GlmbCrash
import Verif.Props.CphdCrash
import Verif.Props.CrashHonest
import Verif.Props.JglmbCrash
import Verif.Props.Clutter
import Verif.Props.ClutterMono
import Verif.Props.PhdBound
import Verif.Spec.Coord
import Verif.Props.GlmbCoord
import Verif.Props.PhdCoord
import Verif.Props.CphdCoord
import Verif.Props.OspaCoord
import Verif.Props.OspaCov
import Verif.Props.OspaSession
import Verif.Props.GibbsMore
import Verif.Props.PhdHeapRun
import Verif.Props.GlmbHeapRun
import Verif.Props.JglmbHeapRun
import Verif.Props.OspaLocal
import Verif.Props.GatedRun
import Verif.Props.PhdSize
import Verif.Props.CphdSize
import Verif.Props.CphdPoisson
import Verif.Props.GlmbSize
import Verif.Props.GlmbCount
import Verif.Props.JglmbSize
import Verif.Props.JglmbReport
import Verif.Props.PhdDecay
import Verif.Props.PhdIntensity
import Verif.Props.MoreResults
import Verif.Props.AssignLayout
import Verif.Props.GlmbBirthOrder
import Verif.Props.GlmbNoCov
import Verif.Props.JglmbNoCov
import Verif.Props.GlmbOdds
import Verif.Props.CphdDebug
import Verif.Props.GlmbTwice
import Verif.Props.GlmbRunWeights
import Verif.Props.GlmbUnits
import Verif.Props.PhdTwice
import Verif.Props.PhdSettle
import Verif.Props.NoTrace
import Verif.Props.CphdHeapEx
