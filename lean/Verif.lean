import Verif.Props.Spatial
import Verif.Props.Construction
import Verif.Props.Joints
import Verif.Props.Kinematics
import Verif.Props.Dynamics
import Verif.Props.ForwardDynamics
import Verif.Props.Quaternion
import Verif.Props.Tridiagonal
import Verif.Props.Parameters
import Verif.Props.Jacobian
import Verif.Props.Coriolis
import Verif.Props.Com
import Verif.Props.Centroidal
import Verif.Props.Cholesky
import Verif.Props.Minverse
import Verif.Props.Ancestor
import Verif.Props.Regressor
import Verif.Props.Geometry
import Verif.Props.Parallel
import Verif.Props.Contact
import Verif.Props.LieGroup
import Verif.Props.History
import Verif.Props.Reduce
import Verif.Props.Append
import Verif.Spec.Variation
import Verif.Algo.VariationLemmas
import Verif.Algo.KinDerivatives
import Verif.Algo.KinDerLemmas
import Verif.Props.KinDerivatives
import Verif.Algo.RneaDerivatives
import Verif.Algo.TorqueVariation
import Verif.Algo.RneaDerLemmas
import Verif.Algo.GravDerLemmas
import Verif.Props.RneaDerivatives
import Verif.Spec.FwdDer
import Verif.Algo.AbaDerivatives
import Verif.Algo.AbaDerLemmas
import Verif.Algo.AbaDerVariation
import Verif.Props.AbaDerivatives
import Verif.Spec.CentDer
import Verif.Algo.CentroidalDerivatives
import Verif.Algo.CentroidalDerVariation
import Verif.Algo.CentroidalDerLemmas
import Verif.Algo.CentroidalDerOut
import Verif.Props.CentroidalDerivatives
import Verif.Algo.AllTerms
import Verif.Algo.AllTermsLemmas
import Verif.Props.AllTerms
import Verif.LieGroup.ExpLog
import Verif.Spec.ExpMap
import Verif.Spec.ConfVel
import Verif.LieGroup.Curves
import Verif.LieGroup.ExpMap
import Verif.LieGroup.ExpDeriv
import Verif.LieGroup.ExpCode
import Verif.LieGroup.ExpAccuracy
import Verif.LieGroup.GroupDeriv
import Verif.LieGroup.GroupDiff
import Verif.LieGroup.ModelDeriv
import Verif.Spec.ExpRegime
import Verif.LieGroup.CodeStep
import Verif.LieGroup.ExpWitness
import Verif.Props.LieDerivatives
import Verif.Algo.ContactDynamics
import Verif.Spec.Contact
import Verif.Algo.ContactDynamicsLemmas
import Verif.Props.ContactDynamics
import Verif.Algo.Constraint
import Verif.Algo.ConstraintLemmas
import Verif.Props.Constraint
import Verif.Algo.ContactCholesky
import Verif.Algo.ContactCholeskyLemmas
import Verif.Algo.ContactCholeskyFactor
import Verif.Algo.ContactCholeskySolve
import Verif.Spec.ContactKkt
import Verif.Props.ContactCholesky
import Verif.Algo.ConstraintDynamics
import Verif.Algo.ConstraintDynamicsLemmas
import Verif.Algo.ConstraintDynamicsSolve
import Verif.Algo.ConstraintDynamicsDrift
import Verif.Spec.Baumgarte
import Verif.Props.ConstraintDynamics
import Verif.Model.Serialize
import Verif.Model.SerializeLemmas
import Verif.Model.Equality
import Verif.Model.EqualityLemmas
import Verif.Props.Serialize
import Verif.Props.Equality
import Verif.Model.Urdf
import Verif.Spec.Urdf
import Verif.Model.UrdfLemmas
import Verif.Model.UrdfStep
import Verif.Props.Urdf
import Verif.Math.Rpy
import Verif.Spec.Rpy
import Verif.Math.RpyLemmas
import Verif.Props.Rpy
import Verif.Model.DataTables
import Verif.Model.DataTablesLemmas
import Verif.Props.DataTables
import Verif.Algo.Hessian
import Verif.Algo.HessianLemmas
import Verif.Props.Hessian
import Verif.Algo.DelassusOp
import Verif.Props.DelassusOp
import Verif.Math.Eigenvalues
import Verif.Math.EigenvaluesLemmas
import Verif.Props.Eigenvalues
import Verif.Geom.Query
import Verif.Props.GeomQuery
import Verif.Math.Lanczos
import Verif.Props.Lanczos
import Verif.Algo.Supported
import Verif.Props.Supported
import Verif.Geom.Broadphase
import Verif.Geom.BroadphaseLemmas
import Verif.Props.Broadphase
import Verif.LieGroup.Random
import Verif.Props.Random
import Verif.Model.Srdf
import Verif.Props.Srdf
import Verif.Algo.Delassus
import Verif.Spec.Delassus
import Verif.Algo.DelassusLemmas
import Verif.Props.Delassus
import Verif.Spec.Mimic
import Verif.Model.Mimic
import Verif.Model.MimicLemmas
import Verif.Model.MimicDyn
import Verif.Props.Mimic
import Verif.Spec.CrbaMimic
import Verif.Algo.CrbaMimic
import Verif.Algo.CrbaMimicLemmas
import Verif.Algo.CrbaMimicSteps
import Verif.Algo.CrbaMimicLocal
import Verif.Model.MimTabLemmas
import Verif.Props.CrbaMimic
import Verif.Algo.Pv
import Verif.Algo.PvCore
import Verif.Algo.PvLemmas
import Verif.Algo.PvPasses
import Verif.Algo.PvMain
import Verif.Spec.Pv
import Verif.Props.Pv
import Verif.Algo.PvAba
import Verif.Spec.PvAba
import Verif.Algo.PvAbaLemmas
import Verif.Algo.PvAbaMain
import Verif.Props.PvAba
import Verif.Algo.ContactAba
import Verif.Algo.ContactAbaLemmas
import Verif.Spec.ContactAba
import Verif.Algo.ContactAbaMain
import Verif.Props.ContactAba
import Verif.Props.PvAbaConverge
import Verif.Algo.PvDelassus
import Verif.Algo.PvDelassusTab
import Verif.Algo.PvDelassusInit
import Verif.Algo.PvDelassusCore
import Verif.Algo.PvDelassusMain
import Verif.Algo.PvDelassusFin
import Verif.Props.PvDelassus
import Verif.Spatial.ActOnSet
import Verif.Spatial.ActOnSetLemmas
import Verif.Props.ActOnSet
import Verif.Algo.RefFrame
import Verif.Props.RefFrame
import Verif.Algo.Workspace
import Verif.Algo.WorkspaceLemmas
import Verif.Algo.WorkspaceVel
import Verif.Props.Workspace
