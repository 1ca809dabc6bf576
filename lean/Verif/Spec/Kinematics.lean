import Verif.Algo.Data

/-!
# Specification: kinematics and virtual power on a tree

Closed-form definitions (no `Data`, no loop) of what the algorithms are supposed to compute.
-/

namespace Pin
open Finset
variable {K : Type*}

/-- the chain of joints from the child of the universe down to `j` -/
def path (par : ℕ → ℕ) (j : ℕ) : List ℕ := treeRec par [] (fun j l => l ++ [j]) j

namespace Sys
variable [CommRing K] (s : Sys K)

/-- placement of joint `i` in its parent at configuration `q`: joint placement times joint transform -/
def X (q : ℕ → K) (i : ℕ) : SE3 K := s.pl i * (s.jt i).M (s.qs q i)

/-- placement of joint `j` in the world: the product of the transforms along the chain -/
def oM (q : ℕ → K) (j : ℕ) : SE3 K := ((path s.par j).map (s.X q)).foldl (· * ·) 1

/-- columns of the motion subspace of joint `i` -/
def S (q : ℕ → K) (i : ℕ) : ℕ → Motion K := (s.jt i).S (s.qs q i)

/-- motion of joint `i` relative to its parent when the joint velocity is `w`: `S_i w_i` -/
def jvel (q w : ℕ → K) (i : ℕ) : Motion K := comb (s.S q i) (s.jnv i) (s.vs w i)

/-- spatial velocity of body `i`, in its own frame, when the joint velocity is `w`:
its joint's motion plus the motion of its parent. It is linear in `w`; as a function of `w` this is the
body Jacobian. -/
def V (q w : ℕ → K) : ℕ → Motion K :=
  treeRec s.par 0 (fun i Vp => s.jvel q w i + (s.X q i).actInv Vp)

/-- bias of joint `i` -/
def cb (q v : ℕ → K) (i : ℕ) : Motion K := (s.jt i).c (s.qs q i) (s.vs v i)

/-- spatial acceleration of body `i`, in its own frame, when the universe accelerates with `a0` -/
def A (a0 : Motion K) (q v a : ℕ → K) : ℕ → Motion K :=
  treeRec s.par a0 (fun i Ap => s.jvel q a i + s.cb q v i + (s.V q v i).cross (s.jvel q v i)
    + (s.X q i).actInv Ap)

/-- the inner product of joint vectors -/
def dotv (x y : ℕ → K) : K := ∑ r ∈ range s.nv, x r * y r

/-- the kinetic-energy bilinear form: `Σ_i (J_i w) · I_i (J_i a)` plus the armature terms -/
def massForm (q w a : ℕ → K) : K :=
  (∑ i ∈ Ico 1 s.n, (s.V q w i).dot ((s.Y i).mul (s.V q a i))) + s.dotv w (fun r => s.arm r * a r)

/-- `e_r` -/
def unit (r : ℕ) : ℕ → K := fun k => if k = r then 1 else 0

end Sys
end Pin
