import Verif.Spec.Com

/-! # Specification: momentum of the whole system -/

namespace Pin
open Finset
variable {K : Type*} [CommRing K]

/-- a force or a momentum given at the world origin, about the point `c`: the moment about `c` is the moment about the
origin minus `c × f` -/
def Force.atPoint (f : Force K) (c : V3 K) : Force K := ⟨f.lin, f.ang - c.cross f.lin⟩

namespace Sys
variable (s : Sys K)
/-- sum of the momenta of the bodies, in the world frame at the origin -/
def hsum (q v : ℕ → K) : Force K := ∑ b ∈ Ico 1 s.n, (s.oM q b).actF ((s.Y b).mul (s.V q v b))
/-- sum of the forces `Y a + v ×* (Y v)` on the bodies, in the world frame at the origin -/
def dhsum (q v a : ℕ → K) : Force K :=
  ∑ b ∈ Ico 1 s.n, (s.oM q b).actF ((s.Y b).mul (s.A 0 q v a b) + (s.V q v b).crossF ((s.Y b).mul (s.V q v b)))
end Sys
end Pin
