import Verif.Model.Abscissae
import Verif.Model.BSp
import Verif.Model.BSpline
import Verif.Model.Bounds
import Verif.Model.BoundsApi
import Verif.Model.BoundsEval
import Verif.Model.Cad
import Verif.Model.CadHeap
import Verif.Model.CadRefine
import Verif.Model.Compat
import Verif.Model.Conformal
import Verif.Model.Coons
import Verif.Model.Ctor
import Verif.Model.DerivLoops
import Verif.Model.Derivs
import Verif.Model.Ders
import Verif.Model.Elevate
import Verif.Model.Elevate32
import Verif.Model.Eval
import Verif.Model.Float
import Verif.Model.FloatArc
import Verif.Model.FloatCircle
import Verif.Model.FloatCompose
import Verif.Model.FloatCtor
import Verif.Model.FloatGrid
import Verif.Model.FloatKnots
import Verif.Model.FloatParts
import Verif.Model.FloatRefine
import Verif.Model.FloatRotate
import Verif.Model.FloatSweep
import Verif.Model.FloatTrans
import Verif.Model.Heap
import Verif.Model.Iga
import Verif.Model.Io
import Verif.Model.Join
import Verif.Model.Loops
import Verif.Model.Nurbs
import Verif.Model.Plot
import Verif.Model.PlotSession
import Verif.Model.Quad
import Verif.Model.QuadLoops
import Verif.Model.Remove
import Verif.Model.SpanMult
import Verif.Model.Special
import Verif.Model.TransHeap
import Verif.Model.Transform
import Verif.Model.Uniform
import Verif.Model.Vtk
import Verif.Proofs.Affine
import Verif.Proofs.ArcKnots
import Verif.Proofs.Assemble
import Verif.Proofs.AssembleN
import Verif.Proofs.Basis
import Verif.Proofs.Boehm
import Verif.Proofs.Bounds
import Verif.Proofs.BoundsApi
import Verif.Proofs.BoundsElev
import Verif.Proofs.BoundsEval
import Verif.Proofs.BoundsKnots
import Verif.Proofs.BoundsRefine
import Verif.Proofs.BoundsRemove
import Verif.Proofs.Built
import Verif.Proofs.Cad
import Verif.Proofs.CadFresh
import Verif.Proofs.CadHeap
import Verif.Proofs.CadRefine
import Verif.Proofs.CallArgs
import Verif.Proofs.Circle
import Verif.Proofs.Clamp
import Verif.Proofs.ClampUnclamp
import Verif.Proofs.Coarse
import Verif.Proofs.Collocation
import Verif.Proofs.CollocationInv
import Verif.Proofs.Compat
import Verif.Proofs.Conformal
import Verif.Proofs.ConformalRegular
import Verif.Proofs.Count
import Verif.Proofs.Curve
import Verif.Proofs.CurveForm
import Verif.Proofs.CurveSpec
import Verif.Proofs.Data
import Verif.Proofs.DataCall
import Verif.Proofs.DataOrder
import Verif.Proofs.DerivGrid
import Verif.Proofs.DerivLoops
import Verif.Proofs.DerivPoint
import Verif.Proofs.DerivRat
import Verif.Proofs.Derivs
import Verif.Proofs.Ders
import Verif.Proofs.DersAlg
import Verif.Proofs.ElevBez
import Verif.Proofs.ElevBrk
import Verif.Proofs.ElevForm
import Verif.Proofs.ElevLoop
import Verif.Proofs.ElevMain
import Verif.Proofs.ElevRem
import Verif.Proofs.ElevTop
import Verif.Proofs.Elevate32
import Verif.Proofs.Ends
import Verif.Proofs.Eval
import Verif.Proofs.Eval23
import Verif.Proofs.Extract
import Verif.Proofs.FindMult
import Verif.Proofs.FindSpan
import Verif.Proofs.Float
import Verif.Proofs.FloatAxis
import Verif.Proofs.FloatBinary
import Verif.Proofs.FloatComp
import Verif.Proofs.FloatEnds
import Verif.Proofs.FloatEval
import Verif.Proofs.FloatExactMap
import Verif.Proofs.FloatInsert
import Verif.Proofs.FloatKnots
import Verif.Proofs.FloatNrb
import Verif.Proofs.FloatParts
import Verif.Proofs.FloatRefine
import Verif.Proofs.FloatSign
import Verif.Proofs.FloatSterbenz
import Verif.Proofs.FloatTrack
import Verif.Proofs.Form
import Verif.Proofs.Greville
import Verif.Proofs.Heap
import Verif.Proofs.HeapFrame
import Verif.Proofs.History
import Verif.Proofs.Hull
import Verif.Proofs.HullCalls
import Verif.Proofs.HullCurve
import Verif.Proofs.HullElev
import Verif.Proofs.HullForm
import Verif.Proofs.HullNrb
import Verif.Proofs.Insert
import Verif.Proofs.InsertCurve
import Verif.Proofs.Io
import Verif.Proofs.Join
import Verif.Proofs.KnotVector
import Verif.Proofs.ListArr
import Verif.Proofs.Merge
import Verif.Proofs.Nrb
import Verif.Proofs.NrbDeriv
import Verif.Proofs.NrbEval
import Verif.Proofs.NrbSub
import Verif.Proofs.Periodic
import Verif.Proofs.Plot
import Verif.Proofs.PlotCalls
import Verif.Proofs.PlotEdges
import Verif.Proofs.PlotLazy
import Verif.Proofs.PlotNet
import Verif.Proofs.PlotSession
import Verif.Proofs.PlotWire
import Verif.Proofs.QuadLoops
import Verif.Proofs.Refine
import Verif.Proofs.Remove
import Verif.Proofs.RemoveAff
import Verif.Proofs.RemoveDev
import Verif.Proofs.RemoveMap
import Verif.Proofs.RemoveTop
import Verif.Proofs.Slice
import Verif.Proofs.SlopeCurve
import Verif.Proofs.SlopeNrb
import Verif.Proofs.Smooth
import Verif.Proofs.SmoothCoarse
import Verif.Proofs.Support
import Verif.Proofs.Tensor
import Verif.Proofs.TotalPos
import Verif.Proofs.Unclamp
import Verif.Proofs.Uniform
import Verif.Proofs.Unique
import Verif.Proofs.Variation
import Verif.Props.Abscissae
import Verif.Props.Assemble
import Verif.Props.AssembleN
import Verif.Props.AssembleNEx
import Verif.Props.Averages
import Verif.Props.AveragesEx
import Verif.Props.Axis
import Verif.Props.Basis
import Verif.Props.Bounds
import Verif.Props.BoundsEx
import Verif.Props.Built
import Verif.Props.BuiltEx
import Verif.Props.Cad
import Verif.Props.CadHeap
import Verif.Props.CadRefine
import Verif.Props.CallArgs
import Verif.Props.Circle
import Verif.Props.Clamp
import Verif.Props.Collocation
import Verif.Props.Compat
import Verif.Props.CompatMore
import Verif.Props.Conform
import Verif.Props.ConformEx
import Verif.Props.Conformal
import Verif.Props.ConformalRational
import Verif.Props.Coons
import Verif.Props.Ctor
import Verif.Props.Data
import Verif.Props.DataEx
import Verif.Props.DerivFollow
import Verif.Props.DerivFollowEx
import Verif.Props.DerivLoops
import Verif.Props.Derivs
import Verif.Props.Derivs4
import Verif.Props.Ders
import Verif.Props.Elevate
import Verif.Props.Elevate32
import Verif.Props.Ends
import Verif.Props.Float
import Verif.Props.FloatArc
import Verif.Props.FloatCircle
import Verif.Props.FloatCompose
import Verif.Props.FloatCtor
import Verif.Props.FloatEnds
import Verif.Props.FloatExactMap
import Verif.Props.FloatGreville
import Verif.Props.FloatGrid
import Verif.Props.FloatInsert
import Verif.Props.FloatKnotVector
import Verif.Props.FloatKnots
import Verif.Props.FloatKnotsEx
import Verif.Props.FloatLinear
import Verif.Props.FloatParam
import Verif.Props.FloatParts
import Verif.Props.FloatPlace
import Verif.Props.FloatPoints
import Verif.Props.FloatRefine
import Verif.Props.FloatRelative
import Verif.Props.FloatRotate
import Verif.Props.FloatSweep
import Verif.Props.FloatTrans
import Verif.Props.Frame
import Verif.Props.Gauss
import Verif.Props.Greville
import Verif.Props.Heap
import Verif.Props.HeapEx
import Verif.Props.History
import Verif.Props.HistoryEx
import Verif.Props.Insert
import Verif.Props.Io
import Verif.Props.IoVec
import Verif.Props.Join
import Verif.Props.KnotVector
import Verif.Props.Local
import Verif.Props.Mapped
import Verif.Props.NrbAxis
import Verif.Props.Nurbs
import Verif.Props.Param
import Verif.Props.Part
import Verif.Props.PartEx
import Verif.Props.Periodic
import Verif.Props.Plot
import Verif.Props.PlotBackend
import Verif.Props.PlotEx
import Verif.Props.PlotKnots
import Verif.Props.PlotSession
import Verif.Props.Points
import Verif.Props.Quad
import Verif.Props.QuadLoops
import Verif.Props.QuasiConformal
import Verif.Props.Refine
import Verif.Props.Rejoin
import Verif.Props.RejoinEx
import Verif.Props.Remove
import Verif.Props.RemoveAll
import Verif.Props.RemoveAllEx
import Verif.Props.RemoveEx
import Verif.Props.RemovePts
import Verif.Props.RemoveSmooth
import Verif.Props.RemoveSmoothEx
import Verif.Props.Represent
import Verif.Props.Revolve
import Verif.Props.Ruled
import Verif.Props.Slice
import Verif.Props.Slopes
import Verif.Props.SlopesEx
import Verif.Props.Smooth
import Verif.Props.SpanMult
import Verif.Props.Spans
import Verif.Props.Special
import Verif.Props.Swap
import Verif.Props.TransHeap
import Verif.Props.Transform
import Verif.Props.Uniform
import Verif.Props.Variation
import Verif.Props.Vtk
import Verif.Spec.Affine
import Verif.Spec.Assemble
import Verif.Spec.AssembleN
import Verif.Spec.Averages
import Verif.Spec.CadHeap
import Verif.Spec.CadRefine
import Verif.Spec.Coarse
import Verif.Spec.Colloc
import Verif.Spec.Compat
import Verif.Spec.Cox
import Verif.Spec.Curve
import Verif.Spec.Data
import Verif.Spec.DerivFollow
import Verif.Spec.Derivs
import Verif.Spec.Ders
import Verif.Spec.Elevate
import Verif.Spec.Ends
import Verif.Spec.Examples
import Verif.Spec.Float
import Verif.Spec.Heap
import Verif.Spec.History
import Verif.Spec.Io
import Verif.Spec.Knots
import Verif.Spec.Local
import Verif.Spec.Nrb
import Verif.Spec.Part
import Verif.Spec.Periodic
import Verif.Spec.Plot
import Verif.Spec.PlotSession
import Verif.Spec.Slopes
import Verif.Spec.Smooth
import Verif.Spec.Tensor
import Verif.Spec.TransHeap
import Verif.Spec.Variation
import Verif.Spec.Vtk
