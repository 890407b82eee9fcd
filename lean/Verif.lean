import Verif.Time.Props
import Verif.Archive.Props
import Verif.UnionFind.Props
import Verif.BSpline.Calculus
import Verif.Corrector.Props
import Verif.Timer.Props
import Verif.Batch.Props
import Verif.Merged.Props
import Verif.Estimator.Props
import Verif.MatArchive.Props
import Verif.Tag.Tables
import Verif.Optimizer.Props
import Verif.Threads.Props
import Verif.Problem.Props
import Verif.Jacobian.Props
import Verif.Sparse.Props
import Verif.Sparse.ExportProps
import Verif.Sparse.PermProps
import Verif.Normal.Props
import Verif.CCM.Props
import Verif.JobQueue.Props
import Verif.Robust.Props
import Verif.TrustRegion.Props
import Verif.Grid.Props
import Verif.Kinematics.Transform
import Verif.Kinematics.AxisAngle
import Verif.Kinematics.RVJacobian
import Verif.Kinematics.Update
import Verif.Kinematics.EulerTrip
import Verif.Kinematics.SMatrix
import Verif.Camera.UndistProps
import Verif.Camera.Converge
import Verif.Camera.PinholeProps
import Verif.Camera.OmniProps
import Verif.Camera.EucmProps
import Verif.Camera.DsProps
import Verif.Target.Model
import Verif.Target.GridProps
import Verif.Target.ObsProps
import Verif.Target.DetectProps
import Verif.Target.AprilProps
import Verif.Expr.Model
import Verif.Expr.Spec
import Verif.Expr.Calculus
import Verif.Expr.Leaves
import Verif.Expr.Vel
import Verif.Expr.Caches
import Verif.Expr.Jacs
import Verif.Expr.Props
import Verif.Expr.RK
import Verif.Expr.Container
import Verif.Expr.ErrorTerms
import Verif.Pose.Model
import Verif.Pose.Spec
import Verif.Pose.Jacs
import Verif.Pose.Rates
import Verif.Pose.NodeModel
import Verif.Pose.Nodes
import Verif.Motion.Model
import Verif.Motion.Spec
import Verif.Motion.Algebra
import Verif.Motion.Integral
import Verif.Motion.Props
import Verif.Motion.Error
import Verif.Motion.Prior
import Verif.Imu.Leaves
import Verif.Imu.LeafProps
import Verif.Imu.Model
import Verif.Imu.Props
import Verif.Imu.Physics
import Verif.Imu.Cases
import Verif.Camera.FovProps
import Verif.Reproj.Model
import Verif.Reproj.Spec
import Verif.Reproj.Cameras
import Verif.Reproj.Props
import Verif.Geometry.Model
import Verif.Geometry.Lemmas
import Verif.Geometry.Props
import Verif.Geometry.ParamProps
import Verif.KeyTime.Model
import Verif.KeyTime.Props
import Verif.Fit.Model
import Verif.Fit.Spec
import Verif.Fit.Marsden
import Verif.Fit.Basic
import Verif.Fit.Coeffs
import Verif.Fit.Unique
import Verif.Fit.System
import Verif.Fit.Line
import Verif.Fit.Extend
import Verif.Fit.Least
import Verif.Fit.Points
import Verif.Fit.Witness
import Verif.Cov.Model
import Verif.Cov.Spec
import Verif.Cov.Inverse
import Verif.Cov.Lemmas
import Verif.Cov.Props
import Verif.Cov.Optimizer
import Verif.Lin.Model
import Verif.Lin.Spec
import Verif.Lin.Lemmas
import Verif.Lin.Gram
import Verif.Lin.Reduce
import Verif.Lin.Solve
import Verif.Lin.Props
import Verif.Lin.Marginal
import Verif.Lin.Witness
import Verif.Lin.NullSpace
import Verif.Marg.Model
import Verif.Marg.Spec
import Verif.Marg.Linear
import Verif.Marg.Lemmas
import Verif.Marg.Build
import Verif.Marg.Props
import Verif.Marg.Jacobian
import Verif.Marg.Witness
import Verif.App.Reader
import Verif.App.Extract
import Verif.App.ObsDb
import Verif.App.ObsDbProps
import Verif.App.ObsDbClaims
import Verif.App.Graph
import Verif.App.GraphProps
import Verif.App.Chain
import Verif.App.View
import Verif.App.Filter
import Verif.App.Knots
import Verif.App.Config
import Verif.App.ConfigProps
import Verif.Icc.Unwrap
import Verif.Icc.Shift
import Verif.Icc.Result
import Verif.Icc.Rs
import Verif.Icc.Frames
import Verif.Print.Model
import Verif.Print.Paper
import Verif.Print.Gray
import Verif.Print.Read
import Verif.Print.Checker
import Verif.Quads.Model
import Verif.Quads.Loops
import Verif.Quads.Winding
import Verif.Quads.Shape
import Verif.Quads.Grid
import Verif.Quads.Dups
import Verif.Quads.Fit
import Verif.Quads.Tests
import Verif.Pixels.Model
import Verif.Pixels.Smooth
import Verif.Pixels.Clusters
import Verif.Pcg.Core
import Verif.Pcg.Model
import Verif.Pcg.Blocks
import Verif.Pcg.Props
import Verif.Pcg.Cases
import Verif.Init.Model
import Verif.Init.Median
import Verif.Init.Props
import Verif.Init.Batch
import Verif.Solvers.Cases
import Verif.Uncertain.Vectors
import Verif.Stats.Normal
import Verif.Stats.Multi
import Verif.Stats.Estimator
import Verif.Stats.Vectors
import Verif.Stats.Uniform
import Verif.Stats.Gamma
import Verif.Stats.Draws
import Verif.Histogram.Model
import Verif.Histogram.Props
import Verif.Histogram.One
import Verif.Generic.Scalar
import Verif.Generic.Fixed
import Verif.Numpy.Props
import Verif.Mask.Props
import Verif.Bag.Props
import Verif.Export.Props
import Verif.Validator.Props
import Verif.Report.Props
import Verif.Visual.Props
import Verif.Serial.Model
import Verif.Serial.Props
import Verif.PTree.Model
import Verif.PTree.Props
import Verif.Util.Model
import Verif.Util.Props
import Verif.Gme.Model
import Verif.Gme.Calc
import Verif.Gme.Props
import Verif.Align.Model
import Verif.Align.Props
import Verif.Trafo.Model
import Verif.Trafo.Props
import Verif.Mutex.Model
import Verif.Mutex.Props
import Verif.Undist.Model
import Verif.Undist.Props
import Verif.Fov.Model
import Verif.Fov.Props
import Verif.Thr.Model
import Verif.Thr.Props
import Verif.Stamp.Model
import Verif.Stamp.Props
import Verif.LogFlag.Model
import Verif.LogFlag.Props
import Verif.LogPrint.Model
import Verif.LogPrint.Props
import Verif.Depth.Model
import Verif.Depth.Props
import Verif.Reuse.Props
import Verif.RsCov.Props
import Verif.Printed.Cases
import Verif.Random.Props
import Verif.Simple.Props
import Verif.Dense.Props
import Verif.Schur.Props
import Verif.OldOpt.Props
import Verif.OldDog.Props
import Verif.NumDiff.Props
import Verif.CamFactory.Props
import Verif.Ccs.Props
import Verif.Ids.Props
import Verif.VecDv.Props
import Verif.Quadratic.Props
import Verif.RCov.Props
import Verif.Single.Props
import Verif.Homog.Props
import Verif.MatDv.Props
import Verif.Lm.Props
import Verif.Kinds.Props
import Verif.Audit
