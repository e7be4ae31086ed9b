import Verif.Lemmas.Carlson
import Verif.Lemmas.CarlsonAccuracy
import Verif.Lemmas.CarlsonContract
import Verif.Lemmas.CarlsonConv
import Verif.Lemmas.CarlsonDup
import Verif.Lemmas.CarlsonLimit
import Verif.Lemmas.CarlsonPremature
import Verif.Lemmas.CarlsonPremature2
import Verif.Lemmas.CarlsonReal
import Verif.Lemmas.CarlsonSeries
import Verif.Lemmas.CarlsonUniform
import Verif.Lemmas.CarlsonUniformJ
import Verif.Lemmas.CarlsonUniformPi
import Verif.Lemmas.CarlsonUniformPoly
import Verif.Lemmas.CurledWake
import Verif.Lemmas.CylinderIntegral
import Verif.Lemmas.CylinderReg
import Verif.Lemmas.Elliptic
import Verif.Lemmas.Expand
import Verif.Lemmas.FarField
import Verif.Lemmas.FarPair
import Verif.Lemmas.FarWake
import Verif.Lemmas.FarmMaps
import Verif.Lemmas.Flow
import Verif.Lemmas.FlowFields
import Verif.Lemmas.FlowFrame
import Verif.Lemmas.FlowIntegral
import Verif.Lemmas.FlowKernels
import Verif.Lemmas.FlowLoop
import Verif.Lemmas.FlowPoint
import Verif.Lemmas.FlowPointVortex
import Verif.Lemmas.FlowTurbine
import Verif.Lemmas.Geometry
import Verif.Lemmas.GlobalFilaments
import Verif.Lemmas.GlobalSheet
import Verif.Lemmas.Landen
import Verif.Lemmas.LineIntegrals
import Verif.Lemmas.MirrorKernels
import Verif.Lemmas.NearAxis
import Verif.Lemmas.Polar
import Verif.Lemmas.RadialDecay
import Verif.Lemmas.Riemann
import Verif.Lemmas.Ring
import Verif.Lemmas.RingExpand
import Verif.Lemmas.RingStack
import Verif.Lemmas.RootSums
import Verif.Lemmas.RotorDisk
import Verif.Lemmas.RotorDisk2
import Verif.Lemmas.RotorPlane
import Verif.Lemmas.RotorPlane2
import Verif.Lemmas.RotorPlaneEval
import Verif.Lemmas.Scale
import Verif.Lemmas.ScaleKernels
import Verif.Lemmas.ScaleSolver
import Verif.Lemmas.SkewAccuracy
import Verif.Lemmas.SkewTurbine
import Verif.Lemmas.Skewed
import Verif.Lemmas.SkewedConv
import Verif.Lemmas.SolidAngle
import Verif.Lemmas.Solver
import Verif.Lemmas.SolverHeap
import Verif.Lemmas.StrengthScale
import Verif.Lemmas.TrapzError
import Verif.Lemmas.Turbine
import Verif.Lemmas.TurbineEval
import Verif.Lemmas.TurbineGround
import Verif.Lemmas.TurbineMirror
import Verif.Lemmas.TurbineRotation
import Verif.Lemmas.TurbineScale
import Verif.Lemmas.VortexCylinder
import Verif.Lemmas.VortexDoublet
import Verif.Lemmas.VortexLine
import Verif.Lemmas.VortexPoint
import Verif.Lemmas.YawedSolidAngle
import Verif.Model.Blockage
import Verif.Model.BlockageData
import Verif.Model.ColorMap
import Verif.Model.CurledWake
import Verif.Model.Describe
import Verif.Model.Elliptic
import Verif.Model.FarmBlockage
import Verif.Model.Geometry
import Verif.Model.Interpolants
import Verif.Model.PlaneIO
import Verif.Model.PlanePlot
import Verif.Model.PrettyTime
import Verif.Model.ProjData
import Verif.Model.RingStack
import Verif.Model.RotorPlane
import Verif.Model.SelfSimilar
import Verif.Model.SimLines
import Verif.Model.Solver
import Verif.Model.SolverHeap
import Verif.Model.SolverShapes
import Verif.Model.Stats
import Verif.Model.TurbineCoord
import Verif.Model.VortexCylinder
import Verif.Model.VortexCylinderSkewed
import Verif.Model.VortexDoublet
import Verif.Model.VortexLine
import Verif.Model.VortexPoint
import Verif.Model.VortexRing
import Verif.Model.WindCoord
import Verif.Model.WindFarm
import Verif.Model.WindTurbine
import Verif.Num
import Verif.NumPy
import Verif.Props.AxialStations
import Verif.Props.BlockageData
import Verif.Props.BlockageError
import Verif.Props.BlockageFarm
import Verif.Props.BlockageSampling
import Verif.Props.BlockageSetup
import Verif.Props.BlockageTrends
import Verif.Props.CarlsonDeviation
import Verif.Props.CarlsonLimit
import Verif.Props.CarlsonSchedule
import Verif.Props.CarlsonStop
import Verif.Props.CircShape
import Verif.Props.ColorMap
import Verif.Props.CompleteWake
import Verif.Props.CompleteWake2
import Verif.Props.CtFit
import Verif.Props.CurledWake
import Verif.Props.CylinderAccuracy
import Verif.Props.CylinderAccuracy2
import Verif.Props.CylinderAccuracy3
import Verif.Props.CylinderReg
import Verif.Props.Describe
import Verif.Props.DoubletIntegrals
import Verif.Props.DoubletNum
import Verif.Props.Elliptic
import Verif.Props.EllipticIdentities
import Verif.Props.FarAccuracy
import Verif.Props.FarBlockage
import Verif.Props.FarField
import Verif.Props.FarRim
import Verif.Props.FarWakeStraight
import Verif.Props.FarmAccuracy
import Verif.Props.FarmAxes
import Verif.Props.FarmBlockage
import Verif.Props.FarmStations
import Verif.Props.FarmSymmetry
import Verif.Props.FarmUnits
import Verif.Props.Flow
import Verif.Props.FlowTurbine
import Verif.Props.Geometry
import Verif.Props.GroundImage
import Verif.Props.GroundSkew
import Verif.Props.GroundSkew2
import Verif.Props.Interpolants
import Verif.Props.LoadingSpread
import Verif.Props.LongiAccuracy
import Verif.Props.Mirror
import Verif.Props.Momentum
import Verif.Props.MoreThrust
import Verif.Props.Nearest
import Verif.Props.NoSwirlStations
import Verif.Props.PlaneIO
import Verif.Props.PlanePath
import Verif.Props.PlanePlot
import Verif.Props.PointVortexMaps
import Verif.Props.PointVortexMotion
import Verif.Props.PrettyTime
import Verif.Props.ProjData
import Verif.Props.Refinement
import Verif.Props.RefinementRow
import Verif.Props.RefinementSwirl
import Verif.Props.Resolution
import Verif.Props.RingCore
import Verif.Props.RingStack
import Verif.Props.RingStackAxis
import Verif.Props.RootHorizontal
import Verif.Props.RotorDisk
import Verif.Props.RotorPlane
import Verif.Props.RotorPlaneShipped
import Verif.Props.RoundLinear
import Verif.Props.Row
import Verif.Props.RowResolution
import Verif.Props.SelfSimilar
import Verif.Props.SimFarm
import Verif.Props.SimLines
import Verif.Props.SkewAccuracy
import Verif.Props.SkewCentre
import Verif.Props.SkewedGround
import Verif.Props.SkewedLegacy
import Verif.Props.SkewedSymmetry
import Verif.Props.SolidAngle
import Verif.Props.Solver
import Verif.Props.SolverCont
import Verif.Props.SolverContents
import Verif.Props.SolverHeap
import Verif.Props.SolverLimits
import Verif.Props.SolverLoading
import Verif.Props.SolverPitch
import Verif.Props.SolverShapes
import Verif.Props.SolverTorque
import Verif.Props.Stats
import Verif.Props.StraightShipped
import Verif.Props.StreamTube
import Verif.Props.Swirl
import Verif.Props.ThrustSwirl
import Verif.Props.Turbine
import Verif.Props.TurbineCoord
import Verif.Props.TurbineField
import Verif.Props.TurbineLoading
import Verif.Props.TurbineMemory
import Verif.Props.TurbineMirror
import Verif.Props.TurbineMulti
import Verif.Props.TurbineState
import Verif.Props.TurbineSwirl
import Verif.Props.TurbineSwirl2
import Verif.Props.TurbineValue
import Verif.Props.Units
import Verif.Props.VortexCylinder
import Verif.Props.VortexCylinder2
import Verif.Props.VortexCylinderLongi
import Verif.Props.VortexCylinderSkewed
import Verif.Props.VortexDoublet
import Verif.Props.VortexLine
import Verif.Props.VortexPoint
import Verif.Props.VortexRing
import Verif.Props.WakeBoundary
import Verif.Props.WindCoord
import Verif.Props.WindFarm
import Verif.Props.WindFarmGrid
import Verif.Props.WindFarmLayout
import Verif.Props.YawedFarm
import Verif.Props.YawedFarmBlockage
import Verif.Props.YawedFarmStations
import Verif.Props.YawedRotor
import Verif.Props.YawedSolidAngle
import Verif.Props.YawedSpread
import Verif.Props.YawedStations
import Verif.Props.ZeroSkew
import Verif.Spec.BiotSavart
import Verif.Spec.Carlson
import Verif.Spec.CarlsonIntegrals
import Verif.Spec.CompleteWake
import Verif.Spec.CurledWake
import Verif.Spec.Cylinder
import Verif.Spec.Dispatch
import Verif.Spec.Doublet
import Verif.Spec.Elliptic
import Verif.Spec.FarAccuracy
import Verif.Spec.FarmAxes
import Verif.Spec.FarmFlow
import Verif.Spec.Flow
import Verif.Spec.History
import Verif.Spec.Interp
import Verif.Spec.Mirror
import Verif.Spec.Path
import Verif.Spec.PointVortex
import Verif.Spec.PointVortexMaps
import Verif.Spec.PointVortexMotion
import Verif.Spec.Ring
import Verif.Spec.RotorAngle
import Verif.Spec.RotorPlane
import Verif.Spec.SkewedCylinder
import Verif.Spec.SolidAngle
import Verif.Spec.Solver
import Verif.Spec.Turbine
import Verif.Spec.TurbineSwirl
import Verif.Spec.Units
import Verif.Spec.WindFarm
import Verif.Spec.YawedFarm
