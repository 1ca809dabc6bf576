import Verif.Spatial.Examples

/-!
# C05–C08, C10: spatial algebra

Specification vocabulary used by the statements (independent of the model's helpers):

* `velAt v p`  : velocity of the material point at `p` of a body with spatial velocity `v`;
* `momentAt f p` : moment of the wrench `f` about the point `p`;
* `M3.IsRot R` : `RᵀR = 1` and `det R = 1`;
* 3×3 and 6×6 matrices with the usual product, transpose and matrix/vector product.
-/

set_option linter.unusedSectionVars false
set_option linter.unusedSimpArgs false
set_option linter.unusedVariables false

namespace Pin
variable {K : Type*}

/-! ## Specification -/

/-- velocity field of a twist -/
def velAt [CommRing K] (v : Motion K) (p : V3 K) : V3 K := v.lin + v.ang.cross p
/-- moment of a wrench about a point -/
def momentAt [CommRing K] (f : Force K) (p : V3 K) : V3 K := f.ang - p.cross f.lin

section
variable [CommRing K]

/-! ## C05 -/

/-- C05: SE3 with the code's `operator*`, `Identity`, `inverse` satisfies the group laws on rigid
transforms, and stays inside rigid transforms. -/
theorem C05_group (A B C : SE3 K) (hA : A.Valid) (hB : B.Valid) :
    (A * B) * C = A * (B * C) ∧ 1 * A = A ∧ A * 1 = A ∧ A * A.inv = 1 ∧ A.inv * A = 1 ∧
    (A * B).rot.IsRot ∧ A.inv.rot.IsRot ∧ A.actInvSE3 B = A.inv * B ∧ A * A.actInvSE3 B = B := by
  have h9 : A.actInvSE3 B = A.inv * B := by
    ext1
    · rfl
    · simp only [SE3.actInvSE3, SE3.inv, SE3.mul_trans, M3.mulVec_sub]; abel
  refine ⟨SE3.mul_assoc A B C, SE3.one_mul A, SE3.mul_one A, SE3.mul_inv hA, SE3.inv_mul hA,
    SE3.Valid.mul hA hB, SE3.Valid.inv hA, h9, ?_⟩
  rw [h9, ← SE3.mul_assoc, SE3.mul_inv hA, SE3.one_mul]

/-- C05: the action on points is the rigid motion `x ↦ R x + p`: it is a group action, `actInv` is its
inverse, and it preserves distances. -/
theorem C05_points (A B : SE3 K) (hA : A.Valid) (hB : B.Valid) (p q : V3 K) :
    A.actP p = A.rot.mulVec p + A.trans ∧ (A * B).actP p = A.actP (B.actP p) ∧
    A.actInvP (A.actP p) = p ∧ A.actP (A.actInvP p) = p ∧ A.inv.actP p = A.actInvP p ∧
    (A.actP p - A.actP q).sqNorm = (p - q).sqNorm := by
  have hR : A.rot.IsRot := hA
  have e3 : A.actInvP (A.actP p) = p := by
    have : A.rot.mulVec p + A.trans - A.trans = A.rot.mulVec p := by abel
    simp only [SE3.actInvP, SE3.actP, this, hR.tr_mulVec_mulVec]
  have e4 : A.actP (A.actInvP p) = p := by
    have : p - A.trans + A.trans = p := by abel
    simp only [SE3.actInvP, SE3.actP, hR.mulVec_tr_mulVec, this]
  refine ⟨rfl, ?_, e3, e4, ?_, ?_⟩
  · simp only [SE3.actP, SE3.mul_rot, SE3.mul_trans, M3.mulVec_add, ← M3.mulVec_mulVec]; abel
  · simp only [SE3.actP, SE3.inv, SE3.actInvP, M3.mulVec_sub]; abel
  · have : A.actP p - A.actP q = A.rot.mulVec (p - q) := by
      simp only [SE3.actP, M3.mulVec_sub]; abel
    rw [this]
    exact hR.dot_mulVec (p - q) (p - q)

/-- C05: the action on motions transports velocity fields: the velocity of the moved point `M p` in the
moved twist is the rotated velocity of `p`. -/
theorem C05_motion_field (M : SE3 K) (h : M.Valid) (v : Motion K) (p : V3 K) :
    velAt (M.act v) (M.actP p) = M.rot.mulVec (velAt v p) ∧
    velAt (M.actInv v) (M.actInvP p) = M.rot.tr.mulVec (velAt v p) := by
  have hR : M.rot.IsRot := h
  have key : ∀ (v : Motion K) (p : V3 K), velAt (M.act v) (M.actP p) = M.rot.mulVec (velAt v p) := by
    intro v p
    simp only [velAt, SE3.act, SE3.actP, M3.mulVec_add, hR.mulVec_cross]
    ext <;> simp only [V3.add_x, V3.add_y, V3.add_z, V3.cross] <;> ring
  refine ⟨key v p, ?_⟩
  have h1 := key (M.actInv v) (M.actInvP p)
  rw [SE3.act_actInv h, (C05_points M M h h p p).2.2.2.1] at h1
  rw [h1, hR.tr_mulVec_mulVec]

/-- C05: the action on forces transports wrenches: the force is rotated and so is its moment about every
point. -/
theorem C05_force_moment (M : SE3 K) (h : M.Valid) (f : Force K) (p : V3 K) :
    (M.actF f).lin = M.rot.mulVec f.lin ∧
    momentAt (M.actF f) (M.actP p) = M.rot.mulVec (momentAt f p) := by
  have hR : M.rot.IsRot := h
  refine ⟨rfl, ?_⟩
  simp only [momentAt, SE3.actF, SE3.actP, M3.mulVec_sub, hR.mulVec_cross]
  ext <;> simp only [V3.add_x, V3.add_y, V3.add_z, V3.sub_x, V3.sub_y, V3.sub_z, V3.cross] <;> ring

/-- C05: `act`/`actInv` are mutually inverse and compatible with composition, on motions and forces. -/
theorem C05_actions (A B : SE3 K) (hA : A.Valid) (hB : B.Valid) (v : Motion K) (f : Force K) :
    A.act (A.actInv v) = v ∧ A.actInv (A.act v) = v ∧
    A.actF (A.actInvF f) = f ∧ A.actInvF (A.actF f) = f ∧
    (A * B).act v = A.act (B.act v) ∧ (A * B).actF f = A.actF (B.actF f) ∧
    (1 : SE3 K).act v = v ∧ (1 : SE3 K).actF f = f ∧
    A.inv.act v = A.actInv v ∧ A.inv.actF f = A.actInvF f := by
  refine ⟨SE3.act_actInv hA v, SE3.actInv_act hA v, SE3.actF_actInvF hA f, SE3.actInvF_actF hA f,
    SE3.mul_act hA B v, SE3.mul_actF hA B f, ?_, ?_, SE3.inv_act hA v, SE3.inv_actF hA f⟩
  · ext <;> simp [SE3.act]
  · ext <;> simp [SE3.actF]

/-- C05: the same for inertias. -/
theorem C05_inertia (A B : SE3 K) (hA : A.Valid) (hB : B.Valid) (I : Inertia K) :
    (I.act A).actInv A = I ∧ (I.actInv A).act A = I ∧ I.act (A * B) = (I.act B).act A ∧
    I.act 1 = I := by
  have hRA : A.rot.IsRot := hA
  have hRB : B.rot.IsRot := hB
  have e : ∀ (R S : M3 K), R.IsRot → S.IsRot → ∀ s : Sym3 K,
      (s.rotate S).rotate R = s.rotate (R * S) := by
    intro R S hR hS s
    apply Sym3.matrix_injective
    rw [Sym3.rotate_matrix _ hR, Sym3.rotate_matrix _ hS, Sym3.rotate_matrix _ (hR.mul hS),
      M3.tr_mul]
    simp only [M3.mul_assoc']
  have e1 : ∀ s : Sym3 K, s.rotate 1 = s := by
    intro s
    apply Sym3.matrix_injective
    rw [Sym3.rotate_matrix _ M3.IsRot.one]
    ext <;> simp [Sym3.matrix]
  refine ⟨?_, ?_, ?_, ?_⟩
  · have h1 : I.lever = A.rot.tr.mulVec (A.trans + A.rot.mulVec I.lever - A.trans) := by
      have : A.trans + A.rot.mulVec I.lever - A.trans = A.rot.mulVec I.lever := by abel
      rw [this, hRA.tr_mulVec_mulVec]
    simp only [Inertia.act, Inertia.actInv, e _ _ hRA.tr hRA, hRA.tr_mul, e1, ← h1]
  · have h1 : I.lever = A.trans + A.rot.mulVec (A.rot.tr.mulVec (I.lever - A.trans)) := by
      rw [hRA.mulVec_tr_mulVec]; abel
    simp only [Inertia.act, Inertia.actInv, e _ _ hRA hRA.tr, hRA.mul_tr, e1, ← h1]
  · simp only [Inertia.act, SE3.mul_rot, SE3.mul_trans, e _ _ hRA hRB, M3.mulVec_add,
      ← M3.mulVec_mulVec]
    congr 1
    abel
  · simp only [Inertia.act, SE3.one_rot, SE3.one_trans, e1]
    congr 1
    ext <;> simp

example : Ex.mA.Valid ∧ Ex.mB.Valid ∧ Ex.mA * Ex.mB ≠ Ex.mB * Ex.mA ∧ Ex.mA * Ex.mA.inv = 1 ∧
    Ex.iA.act Ex.mA ≠ Ex.iA :=
  ⟨Ex.mA_valid, Ex.mB_valid, by decide +kernel, by decide +kernel, by decide +kernel⟩

/-! ## C06 -/

/-- C06: the 6×6 matrices returned by `toActionMatrix`, `toActionMatrixInverse`,
`toDualActionMatrix` are the matrices of `act`, `actInv` and `act` on forces. -/
theorem C06_action_matrices (M : SE3 K) (v : Motion K) (f : Force K) :
    M.toActionMatrix.mulMM v = M.act v ∧ M.toActionMatrixInverse.mulMM v = M.actInv v ∧
    M.toDualActionMatrix.mulFF f = M.actF f :=
  ⟨SE3.toActionMatrix_mul M v, SE3.toActionMatrixInverse_mul M v, SE3.toDualActionMatrix_mul M f⟩

/-- C06: the action matrix is multiplicative, the inverse matrix is its two-sided inverse, and the dual
action matrix is the inverse transpose. -/
theorem C06_matrix_algebra (A B : SE3 K) (hA : A.Valid) (hB : B.Valid) :
    (A * B).toActionMatrix = A.toActionMatrix * B.toActionMatrix ∧
    A.toActionMatrix * A.toActionMatrixInverse = 1 ∧
    A.toActionMatrixInverse * A.toActionMatrix = 1 ∧
    A.toDualActionMatrix = A.toActionMatrixInverse.tr ∧
    (A * B).toDualActionMatrix = A.toDualActionMatrix * B.toDualActionMatrix := by
  -- a matrix is determined by its action on motions
  have ext : ∀ X Y : M6 K, (∀ v, X.mulMM v = Y.mulMM v) → X = Y := by
    intro X Y h
    apply M6.ext_mulMF
    intro v
    have h1 := congrArg Motion.lin (h v)
    have h2 := congrArg Motion.ang (h v)
    exact Force.ext h1 h2
  have mm : ∀ (X Y : M6 K) v, (X * Y).mulMM v = X.mulMM (Y.mulMM v) := by
    intro X Y v; ext <;> simp [M6.mulMM] <;> ring
  have ff : ∀ (X Y : M6 K) (f : Force K), (X * Y).mulFF f = X.mulFF (Y.mulFF f) := by
    intro X Y v; ext <;> simp [M6.mulFF] <;> ring
  have extF : ∀ X Y : M6 K, (∀ f : Force K, X.mulFF f = Y.mulFF f) → X = Y := by
    intro X Y h
    apply M6.ext_mulMF
    intro v
    exact h ⟨v.lin, v.ang⟩
  have one : ∀ v, (1 : M6 K).mulMM v = v := by intro v; ext <;> simp [M6.mulMM]
  refine ⟨?_, ?_, ?_, ?_, ?_⟩
  · apply ext; intro v
    rw [mm, SE3.toActionMatrix_mul, SE3.toActionMatrix_mul, SE3.toActionMatrix_mul, SE3.mul_act hA]
  · apply ext; intro v
    rw [mm, SE3.toActionMatrix_mul, SE3.toActionMatrixInverse_mul, SE3.act_actInv hA, one]
  · apply ext; intro v
    rw [mm, SE3.toActionMatrix_mul, SE3.toActionMatrixInverse_mul, SE3.actInv_act hA, one]
  · ext <;> simp [SE3.toDualActionMatrix, SE3.toActionMatrixInverse, M3.ofCols, M3.col0, M3.col1,
      M3.col2, SE3.axisCross0, SE3.axisCross1, SE3.axisCross2] <;> ring
  · apply extF; intro v
    rw [ff, SE3.toDualActionMatrix_mul, SE3.toDualActionMatrix_mul, SE3.toDualActionMatrix_mul,
      SE3.mul_actF hA]

/-- C06: the 6×6 matrices of a motion are the matrices of its cross products, and the dual one is minus
the transpose. -/
theorem C06_motion_matrices (v w : Motion K) (f : Force K) :
    v.toActionMatrix.mulMM w = v.cross w ∧ v.toDualActionMatrix.mulFF f = v.crossF f ∧
    v.toDualActionMatrix = -v.toActionMatrix.tr := by
  refine ⟨?_, ?_, ?_⟩
  · ext <;> simp [Motion.toActionMatrix, M6.mulMM, Motion.cross, M3.skew] <;> ring
  · ext <;> simp [Motion.toDualActionMatrix, M6.mulFF, Motion.crossF, M3.skew] <;> ring
  · ext <;> simp [Motion.toDualActionMatrix, Motion.toActionMatrix, M3.skew]

example : Ex.mA.toActionMatrix * Ex.mA.toActionMatrixInverse = 1 ∧
    Ex.mA.toActionMatrix ≠ 1 := ⟨by decide +kernel, by decide +kernel⟩

/-! ## C07 -/

/-- C07: power is invariant under a change of frame. -/
theorem C07_power_invariant (M : SE3 K) (h : M.Valid) (v : Motion K) (f : Force K) :
    (M.act v).dot (M.actF f) = v.dot f ∧ (M.actInv v).dot (M.actInvF f) = v.dot f := by
  refine ⟨SE3.dot_act_actF h v f, ?_⟩
  rw [← SE3.dot_act_actF h, SE3.act_actInv h, SE3.actF_actInvF h]

/-- C07: power is what the velocity field and the wrench say: `F · velocity(p) + moment(p) · ω` for
every point `p`. -/
theorem C07_power_meaning (v : Motion K) (f : Force K) (p : V3 K) :
    v.dot f = f.lin.dot (velAt v p) + (momentAt f p).dot v.ang := by
  simp [velAt, momentAt, Motion.dot, V3.dot]; ring

/-- C07: the motion cross product is a Lie bracket, equivariant under SE3, and the force cross product is
its dual. -/
theorem C07_lie (M : SE3 K) (h : M.Valid) (u v w : Motion K) (f : Force K) (k : K) :
    v.cross w = -w.cross v ∧
    u.cross (v.cross w) + v.cross (w.cross u) + w.cross (u.cross v) = 0 ∧
    (u + k • v).cross w = u.cross w + k • v.cross w ∧
    M.act (v.cross w) = (M.act v).cross (M.act w) ∧
    M.actF (v.crossF f) = (M.act v).crossF (M.actF f) ∧
    (v.cross w).dot f = -w.dot (v.crossF f) :=
  ⟨Motion.cross_anticomm v w, Motion.jacobi u v w, by rw [Motion.add_cross, Motion.smul_cross],
    Motion.act_cross h v w, Motion.act_crossF h v f, Motion.dot_crossF v w f⟩

example : (Ex.mA.act (⟨⟨1, 0, 2⟩, ⟨0, 1, 1⟩⟩ : Motion ℚ)).dot (Ex.mA.actF ⟨⟨1, 1, 0⟩, ⟨2, 0, 1⟩⟩) = 2 ∧
    (⟨⟨1, 0, 2⟩, ⟨0, 1, 1⟩⟩ : Motion ℚ).cross ⟨⟨0, 1, 0⟩, ⟨1, 0, 0⟩⟩ ≠ 0 := by
  constructor <;> decide +kernel

/-! ## C08 -/

/-- C08: `I*v` is the momentum of the body: the linear momentum is the mass times the velocity of the
centre of mass, and the moment of momentum about the centre of mass is the rotational inertia times `ω`. -/
theorem C08_momentum_meaning (I : Inertia K) (v : Motion K) :
    (I.mul v).lin = I.mass • velAt v I.lever ∧
    momentAt (I.mul v) I.lever = I.rotI.matrix.mulVec v.ang := by
  constructor
  · ext <;> simp [Inertia.mul, velAt] <;> ring
  · ext <;> simp [Inertia.mul, momentAt, Sym3.mulVec, Sym3.matrix] <;> ring

/-- C08: `matrix()` is the symmetric 6×6 matrix of `I*v`, and `vtiv` is its quadratic form. -/
theorem C08_matrix (I : Inertia K) (v w : Motion K) :
    I.matrix.mulMF v = I.mul v ∧ I.matrix.tr = I.matrix ∧ I.vtiv v = v.dot (I.mul v) ∧
    w.dot (I.mul v) = v.dot (I.mul w) :=
  ⟨I.matrix_mulMF v, I.matrix_symm, I.vtiv_eq v, I.dot_mul_comm w v⟩

/-- C08: moving a body and its velocity moves its momentum. -/
theorem C08_act (M : SE3 K) (h : M.Valid) (I : Inertia K) (v : Motion K) :
    (I.act M).mul (M.act v) = M.actF (I.mul v) ∧
    (I.actInv M).mul (M.actInv v) = M.actInvF (I.mul v) ∧
    (I.act M).matrix = M.toDualActionMatrix * I.matrix * M.toActionMatrixInverse := by
  refine ⟨by rw [Inertia.act_mul h, SE3.actInv_act h], by rw [Inertia.actInv_mul h, SE3.act_actInv h],
    ?_⟩
  apply M6.ext_mulMF
  intro w
  have : (M.toDualActionMatrix * I.matrix * M.toActionMatrixInverse).mulMF w
      = M.toDualActionMatrix.mulFF (I.matrix.mulMF (M.toActionMatrixInverse.mulMM w)) := by
    ext <;> simp only [M6.mulMF, M6.mulFF, M6.mulMM, M6.mul_ll, M6.mul_la, M6.mul_al, M6.mul_aa,
      M3.add_mulVec, M3.mulVec_add, M3.mulVec_mulVec, V3.add_x, V3.add_y, V3.add_z] <;> ring
  rw [this, Inertia.matrix_mulMF, Inertia.matrix_mulMF, SE3.toDualActionMatrix_mul,
    SE3.toActionMatrixInverse_mul, Inertia.act_mul h]

/-- C08: `vxiv`, `vxi`, `ivx`, `variation` are `v ×* (I v)`, `v ×* I`, `I (v ×)` and their difference. -/
theorem C08_brackets (I : Inertia K) (v w : Motion K) :
    I.vxiv v = v.crossF (I.mul v) ∧ (Inertia.vxi v I).mulMF w = v.crossF (I.mul w) ∧
    (Inertia.ivx v I).mulMF w = I.mul (v.cross w) ∧
    (I.variation v).mulMF w = v.crossF (I.mul w) - I.mul (v.cross w) :=
  ⟨I.vxiv_eq v, I.vxi_mulMF v w, I.ivx_mulMF v w, I.variation_mulMF v w⟩

/-- C08 (used by aba): `internal::SE3actOn` is the congruence `X* A X⁻¹` on every symmetric 6×6 matrix,
and agrees with the compact action on inertias. -/
theorem C08_SE3actOn (M : SE3 K) (h : M.Valid) (A : M6 K) (hA : A.tr = A) (I : Inertia K)
    (v : Motion K) :
    (M.actOn A).mulMF v = M.actF (A.mulMF (M.actInv v)) ∧ (M.actOn A).tr = M.actOn A ∧
    M.actOn I.matrix = (I.act M).matrix :=
  ⟨SE3.actOn_mulMF M hA v, SE3.actOn_symm M hA, SE3.actOn_matrix h I⟩

end

/-- C08: `inverse()` is the inverse of the 6×6 inertia. -/
theorem C08_inverse [Field K] (I : Inertia K) (hm : I.mass ≠ 0) (hd : I.rotI.matrix.det ≠ 0)
    (v : Motion K) : I.inverse.mulFM (I.matrix.mulMF v) = v := by
  rw [Inertia.matrix_mulMF]; exact I.inverse_mulFM hm hd v

section ordered
variable [Field K] [LinearOrder K] [IsStrictOrderedRing K] [HasEps K]

/-- C08: the sum of two inertias acts as the sum of the 6×6 matrices, for `operator+` and `operator+=`,
when the masses are nonnegative and the total mass is zero or at least machine epsilon. -/
theorem C08_add (a b : Inertia K) (ha : 0 ≤ a.mass) (hb : 0 ≤ b.mass)
    (hab : a.mass + b.mass = 0 ∨ HasEps.eps ≤ a.mass + b.mass) :
    (a + b).matrix = a.matrix + b.matrix ∧ (Inertia.addAssign a b).matrix = a.matrix + b.matrix := by
  rw [Inertia.addAssign_eq]
  exact ⟨Inertia.matrix_add a b ha hb hab, Inertia.matrix_add a b ha hb hab⟩

/-- C08: the difference acts as the difference of the 6×6 matrices when the remaining mass is at least
machine epsilon; so it undoes the addition. -/
theorem C08_sub (a b : Inertia K) (hb : 0 ≤ b.mass) (hab : HasEps.eps ≤ a.mass - b.mass) :
    (a - b).matrix = a.matrix - b.matrix ∧ (Inertia.subAssign a b).matrix = a.matrix - b.matrix := by
  rw [Inertia.subAssign_eq]
  exact ⟨Inertia.matrix_sub a b hb hab, Inertia.matrix_sub a b hb hab⟩

/-- the compact representation is determined by the 6×6 matrix when the mass is not zero -/
theorem Inertia.matrix_injective (a b : Inertia K) (h : a.matrix = b.matrix) (hm : a.mass ≠ 0) :
    a = b := by
  have h1 := congrArg M6.ll h
  have h2 := congrArg M6.al h
  have h3 := congrArg M6.aa h
  simp only [Inertia.matrix, M3.alphaSkew, M3.mk.injEq, Sym3.matrix, Sym3.subAlphaSkewSquare] at h1 h2 h3
  have hmm : a.mass = b.mass := h1.1
  obtain ⟨-, z1, y1, -, -, x1, -⟩ := h2
  rw [← hmm] at z1 y1 x1
  have hx : a.lever.x = b.lever.x := by
    have := mul_right_cancel₀ hm x1; linarith
  have hy : a.lever.y = b.lever.y := mul_right_cancel₀ hm y1
  have hz : a.lever.z = b.lever.z := by
    have := mul_right_cancel₀ hm z1; linarith
  rw [← hmm, hx, hy, hz] at h3
  obtain ⟨i0, i1, i2, i3, i4, i5, i6, i7, i8⟩ := h3
  ext
  · exact hmm
  · exact hx
  · exact hy
  · exact hz
  · linarith
  · linarith
  · linarith
  · linarith
  · linarith
  · linarith

/-- C08: `(a + b) - b = a` for masses away from the degenerate range. -/
theorem C08_add_sub (a b : Inertia K) (ha : HasEps.eps ≤ a.mass) (hb : 0 ≤ b.mass) :
    (a + b) - b = a := by
  have hp : (0 : K) < HasEps.eps := HasEps.eps_pos
  have hm : (a + b).mass = a.mass + b.mass := rfl
  have h1 : ((a + b) - b).matrix = a.matrix := by
    rw [(C08_sub (a + b) b hb (by rw [hm]; linarith)).1,
      (C08_add a b (by linarith) hb (Or.inr (by linarith))).1]
    abel
  refine Inertia.matrix_injective _ _ h1 ?_
  have : (a + b - b).mass = a.mass := by
    show a.mass + b.mass - b.mass = a.mass
    ring
  rw [this]
  exact ne_of_gt (by linarith)

/-- C08, negation for degenerate masses: when `0 < ma + mb < eps` the sum does not act as the sum. The
witness has mass `eps/2` with lever `(1,0,0)` and a massless body: the resulting first moment is half
the right one. -/
theorem C08_add_degenerate_counterexample :
    ∃ a b : Inertia K, 0 ≤ a.mass ∧ 0 ≤ b.mass ∧ (a + b).matrix ≠ a.matrix + b.matrix := by
  have hp : (0 : K) < HasEps.eps := HasEps.eps_pos
  refine ⟨⟨HasEps.eps / 2, ⟨1, 0, 0⟩, 0⟩, 0, by show 0 ≤ HasEps.eps / 2; linarith, le_rfl, ?_⟩
  intro h
  have h2 := congrArg (fun M => M.al.m21) h
  have hmax : max (HasEps.eps / 2) (HasEps.eps : K) = HasEps.eps := max_eq_right (by linarith)
  simp [Inertia.matrix, M3.alphaSkew, Inertia.add_def, Inertia.add, hmax] at h2
  have hk : (HasEps.eps : K)⁻¹ * (HasEps.eps / 2) = 1 / 2 := by field_simp
  rw [hk] at h2
  linarith

/-- C08: kinetic energy of a physical inertia is nonnegative. -/
theorem C08_vtiv_nonneg (I : Inertia K) (hm : 0 ≤ I.mass)
    (hI : ∀ w : V3 K, 0 ≤ w.dot (I.rotI.matrix.mulVec w)) (v : Motion K) : 0 ≤ v.dot (I.mul v) := by
  rw [← I.vtiv_eq]
  exact Inertia.Psd.vtiv_nonneg ⟨hm, fun w => by rw [Sym3.vtiv_eq]; exact hI w⟩ v

end ordered

example : (0 : ℚ) ≤ Ex.iA.mass ∧ (0 : ℚ) ≤ Ex.iB.mass ∧ HasEps.eps ≤ Ex.iA.mass + Ex.iB.mass ∧
    HasEps.eps ≤ Ex.iA.mass - Ex.iB.mass ∧ Ex.iA.rotI.matrix.det ≠ 0 ∧
    (Ex.iA + Ex.iB) - Ex.iB = Ex.iA ∧ Ex.iA + Ex.iB ≠ Ex.iA := by
  refine ⟨by decide +kernel, by decide +kernel, by decide +kernel, by decide +kernel,
    by decide +kernel, by decide +kernel, by decide +kernel⟩

/-! ## C10 -/

/-- C10: packed operations agree with dense 3×3 matrices. -/
theorem C10_packed [CommRing K] (s : Sym3 K) (R : M3 K) (hR : R.IsRot) (v : V3 K) (m : K) :
    s.matrix.tr = s.matrix ∧ s.mulVec v = s.matrix.mulVec v ∧
    s.vtiv v = v.dot (s.matrix.mulVec v) ∧
    (s.rotate R).matrix = R * s.matrix * R.tr ∧
    (Sym3.skewSquare v).matrix = M3.skew v * M3.skew v ∧
    (Sym3.alphaSkewSquare m v).matrix = m • (M3.skew v * M3.skew v) ∧
    (s.subAlphaSkewSquare m v).matrix = s.matrix - m • (M3.skew v * M3.skew v) ∧
    (s.subSkewSquare v).matrix = s.matrix - M3.skew v * M3.skew v ∧
    Sym3.vxs v s = M3.skew v * s.matrix ∧ Sym3.svx v s = s.matrix * M3.skew v := by
  refine ⟨s.matrix_symm, (s.matrix_mulVec v).symm, s.vtiv_eq v, s.rotate_matrix hR, ?_, ?_, ?_, ?_,
    ?_, ?_⟩
  all_goals ext <;> simp [Sym3.matrix, Sym3.skewSquare, Sym3.alphaSkewSquare,
    Sym3.subAlphaSkewSquare, Sym3.subSkewSquare, Sym3.vxs, Sym3.svx, M3.skew] <;> ring

/-- C10: the inverse is the matrix inverse. -/
theorem C10_inverse [Field K] (s : Sym3 K) (hd : s.matrix.det ≠ 0) :
    s.inverse * s.matrix = 1 ∧ s.matrix * s.inverse = 1 := by
  have h1 : s.inverse * s.matrix = 1 := by
    have h := fun w => s.inverse_mulVec hd w
    have a := h ⟨1, 0, 0⟩
    have b := h ⟨0, 1, 0⟩
    have c := h ⟨0, 0, 1⟩
    simp only [← Sym3.matrix_mulVec, V3.ext_iff, M3.mulVec] at a b c
    ext <;> simp at * <;> simp [*]
  refine ⟨h1, ?_⟩
  have h2 := congrArg M3.tr h1
  have hS : s.inverse.tr = s.inverse := by ext <;> simp [Sym3.inverse]
  rw [M3.tr_mul, s.matrix_symm, hS] at h2
  rw [h2]; ext <;> simp

/-- C10: `rotate` is wrong for reflections (orthogonal, determinant -1): the packed formula needs a
proper rotation. -/
theorem C10_rotate_reflection_counterexample :
    ∃ (s : Sym3 ℚ) (R : M3 ℚ), R.tr * R = 1 ∧ (s.rotate R).matrix ≠ R * s.matrix * R.tr :=
  ⟨⟨0, 0, 0, 1, 0, 0⟩, ⟨1, 0, 0, 0, 1, 0, 0, 0, -1⟩, by decide +kernel, by decide +kernel⟩

example : Ex.rz.IsRot ∧ Ex.iA.rotI.matrix.det ≠ 0 ∧
    (Ex.iA.rotI.rotate (Ex.rz * Ex.rx)) ≠ Ex.iA.rotI := ⟨Ex.rz_rot, by decide +kernel, by decide +kernel⟩

end Pin
