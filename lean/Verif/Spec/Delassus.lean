import Verif.Spec.Kinematics
import Verif.Algo.Constraint

/-! # Specification: the damped Delassus matrix of a set of contacts -/

namespace Pin
open Finset
variable {K : Type*} [Field K]

/-- velocity of the first frame of a contact, in this frame, when the generalized velocity is `w` -/
def Sys.conVel (s : Sys K) (q : ℕ → K) (m : RCM K) (w : ℕ → K) : Motion K := m.P1.actInv (s.V q w m.j1)

/-- `w · Jᵀ · f`: power of the contact forces `f`, where `f k r` is entry `r` of the force of contact `k` -/
def Sys.conPower (s : Sys K) (q : ℕ → K) (ms : ℕ → RCM K) (nc : ℕ) (f : ℕ → ℕ → K) (w : ℕ → K) : K :=
  ∑ k ∈ range nc, ∑ r ∈ range (ms k).type.dim, (s.conVel q (ms k) w).row r * f k r

/-- `w · (M + μ Jᵀ J) · a`, with the armature in `M` -/
def Sys.dampedForm (s : Sys K) (q : ℕ → K) (ms : ℕ → RCM K) (nc : ℕ) (mu : K) (w a : ℕ → K) : K :=
  s.massForm q w a + mu * s.conPower q ms nc (fun k r => (s.conVel q (ms k) a).row r) w

/-- `M + μ Jᵀ J` is definite -/
def Sys.DampedDef (s : Sys K) (q : ℕ → K) (ms : ℕ → RCM K) (nc : ℕ) (mu : K) : Prop :=
  ∀ w, s.dampedForm q ms nc mu w w = 0 → ∀ r < s.nv, w r = 0

/-- `x` is column `(k, c)` of `(M + μ Jᵀ J)⁻¹ Jᵀ` -/
def Sys.IsResponse (s : Sys K) (q : ℕ → K) (ms : ℕ → RCM K) (nc : ℕ) (mu : K) (k c : ℕ) (x : ℕ → K) : Prop :=
  ∀ w, s.dampedForm q ms nc mu w x = (s.conVel q (ms k) w).row c

end Pin
