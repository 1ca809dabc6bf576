import Verif.Spec.Along

/-!
# Specification: joints with a constant motion subspace

`Sys.ConstS s sε`: no joint has a motion subspace that depends on the configuration, and no joint has a bias.
This holds of all joint types except `SphericalZYX`, `Universal`, ellipsoid and composite joints.
-/

namespace Pin
open DualNumber TrivSqZeroExt
universe u
variable {K : Type u} [CommRing K]

/-- see the file header; `sε` is the same model over dual numbers -/
structure Sys.ConstS (s : Sys K) (sε : Sys K[ε]) : Prop where
  S : ∀ i, 1 ≤ i → i < s.n → ∀ k, k < s.jnv i → ∀ x, (sε.S x i k).map snd = 0
  c : ∀ i, 1 ≤ i → i < s.n → ∀ q v, s.cb q v i = 0
  cε : ∀ i, 1 ≤ i → i < s.n → ∀ q v, sε.cb q v i = 0

end Pin
