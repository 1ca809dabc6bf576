import Verif.Algo.ConstraintLemmas
import Verif.Algo.RegressorLemmas
import Verif.Props.Jacobian

/-!
# C59: the Jacobian of a rigid constraint maps joint velocities to the relative velocity of the two frames

The constraint is built by the constructor `RCM.make`; `calc` and `jacobian` are called after
`computeJointJacobians(q)`, on a matrix of zeros. The velocities are those that `getFrameVelocity` returns after
`forwardKinematics(q, v)` on any other `Data`.
-/

namespace Pin
open Finset DualNumber TrivSqZeroExt
universe u
variable {K : Type u} [CommRing K] {s : Sys K}

/-- entry `r` of `J v`, for the Jacobian that `jacobian` writes into a matrix of zeros -/
def jacTimes (s : Sys K) (m : RCM K) (d : Data K) (v : ℕ → K) (r : ℕ) : K :=
  ∑ k ∈ range s.nv, m.jacobian s d (m.calc d) (fun _ _ => 0) r k * v k

theorem calc_ok (h : s.Packed) (d : Data K) {q : ℕ → K} (hq : s.At q) {m : RCM K} (hm : m.Ok s) (h1 : m.P1.Valid)
    (h2 : m.P2.Valid) : (m.calc (computeJointJacobians s d q)).Ok ∧
      (m.calc (computeJointJacobians s d q)).oMc1 = s.oM q m.j1 * m.P1 ∧
      (m.calc (computeJointJacobians s d q)).oMc2 = s.oM q m.j2 * m.P2 := by
  rw [calc_eq (jac_ok h d q).1 hm.j1 hm.j2]
  exact ⟨⟨(s.oM_valid h.par hq _ hm.j2).mul h2, rfl⟩, rfl, rfl⟩

/-- the constructor refuses the reference frame `WORLD` and accepts the other two -/
theorem C59_frames (s : Sys K) (type : CType) (j1 j2 : ℕ) (P1 P2 : SE3 K) (rf : RF) :
    RCM.make s type j1 P1 j2 P2 rf = none ↔ rf = .WORLD := by
  cases rf <;> simp [RCM.make]

/-- the columns that are in the span of the constraint -/
theorem C59_span (h : s.Packed) {type : CType} {j1 j2 : ℕ} {P1 P2 : SE3 K} {rf : RF} {m : RCM K} (hj1 : j1 < s.n)
    (hj2 : j2 < s.n) (hm : RCM.make s type j1 P1 j2 P2 rf = some m) {i k : ℕ} (i1 : 1 ≤ i) (hi : i < s.n)
    (hk : k < s.jnv i) :
    s.iv i + k ∈ m.span ↔ (if type = .CONTACT_3D then anc s.par i j1 ∨ anc s.par i j2
      else ¬ (anc s.par i j1 ↔ anc s.par i j2)) := by
  obtain ⟨ok, rfl, rfl, rfl, -⟩ := make_ok h hj1 hj2 hm
  rw [ok.span, List.mem_filter, List.mem_range, Bool.or_eq_true, ok.sp1 i k i1 hi hk, ok.sp2 i k i1 hi hk]
  have := h.le_nv i1 hi
  have hlt : s.iv i + k < s.nv := by omega
  split
  · tauto
  · tauto

/-- `CONTACT_3D`: `J v` is the difference of the velocities of the two points, in the axes of the world for
`LOCAL_WORLD_ALIGNED` and in the axes of the first frame for `LOCAL`. -/
theorem C59_velocity_3d (h : s.Packed) (d d' : Data K) {q : ℕ → K} (hq : s.At q) (v : ℕ → K) {j1 j2 : ℕ} (hj1 : j1 < s.n)
    (hj2 : j2 < s.n) {P1 P2 : SE3 K} (hP1 : P1.Valid) (hP2 : P2.Valid) {rf : RF} {m : RCM K}
    (hm : RCM.make s .CONTACT_3D j1 P1 j2 P2 rf = some m) {r : ℕ} (hr : r < 3) :
    jacTimes s m (computeJointJacobians s d q) v r =
      let w := getFrameVelocity (forwardKinematicsV s d' q v) j1 P1 .LOCAL_WORLD_ALIGNED
        - getFrameVelocity (forwardKinematicsV s d' q v) j2 P2 .LOCAL_WORLD_ALIGNED
      match rf with
      | .LOCAL => (⟨(s.oM q j1 * P1).rot.tr.mulVec w.lin, 0⟩ : Motion K).row r
      | _ => w.row r := by
  obtain ⟨ok, e, rfl, rfl, rfl, rfl, hrf⟩ := make_ok h hj1 hj2 hm
  obtain ⟨c0, c1, c2⟩ := calc_ok h d hq ok hP1 hP2
  unfold jacTimes
  rw [jacobian_mul h hq ok c0 (jac_ok h d q).2 v (by rw [e]; exact hr)]
  dsimp only
  rw [frameVelocity_eq h.par d' hq v hj1 hP1, frameVelocity_eq h.par d' hq v hj2 hP2]
  unfold RCM.L1 RCM.L2
  rw [e]
  rcases hrf with ⟨rfl, e'⟩ | ⟨rfl, e'⟩
  · rw [e']
    dsimp only
    rw [c1, c2]
    rcases r with _ | _ | _ | r
    · simp [Motion.row, linRot, M3.mulVec_sub]
    · simp [Motion.row, linRot, M3.mulVec_sub]
    · simp [Motion.row, linRot, M3.mulVec_sub]
    · omega
  · rw [e']
    dsimp only
    rw [c1, c2]
    rcases r with _ | _ | _ | r
    · simp [Motion.row, linPart]
    · simp [Motion.row, linPart]
    · simp [Motion.row, linPart]
    · omega

/-- `CONTACT_6D`: `J v` is the velocity of the first frame minus the velocity of the frame attached to the second
joint that coincides with it, both expressed in the reference frame of the constraint. -/
theorem C59_velocity_6d (h : s.Packed) (d d' : Data K) {q : ℕ → K} (hq : s.At q) (v : ℕ → K) {j1 j2 : ℕ} (hj1 : j1 < s.n)
    (hj2 : j2 < s.n) {P1 P2 : SE3 K} (hP1 : P1.Valid) (hP2 : P2.Valid) {rf : RF} {m : RCM K}
    (hm : RCM.make s .CONTACT_6D j1 P1 j2 P2 rf = some m) {P : SE3 K} (hP : s.oM q j2 * P = s.oM q j1 * P1) {r : ℕ}
    (hr : r < 6) :
    jacTimes s m (computeJointJacobians s d q) v r =
      (getFrameVelocity (forwardKinematicsV s d' q v) j1 P1 rf
        - getFrameVelocity (forwardKinematicsV s d' q v) j2 P rf).row r := by
  obtain ⟨ok, e, rfl, rfl, rfl, rfl, hrf⟩ := make_ok h hj1 hj2 hm
  obtain ⟨c0, c1, c2⟩ := calc_ok h d hq ok hP1 hP2
  have hv1 := s.oM_valid h.par hq m.j1 hj1
  have hv2 := s.oM_valid h.par hq m.j2 hj2
  have hPv : P.Valid := by
    have : P = (s.oM q m.j2).inv * (s.oM q m.j1 * m.P1) := by
      rw [← hP, ← SE3.mul_assoc, SE3.inv_mul hv2, SE3.one_mul]
    rw [this]
    exact hv2.inv.mul (hv1.mul hP1)
  unfold jacTimes
  rw [jacobian_mul h hq ok c0 (jac_ok h d q).2 v (by rw [e]; exact hr)]
  rw [frameVelocity_eq h.par d' hq v hj1 hP1, frameVelocity_eq h.par d' hq v hj2 hPv, hP]
  unfold RCM.L1 RCM.L2
  rw [e]
  rcases hrf with ⟨rfl, e'⟩ | ⟨rfl, e'⟩ <;> rw [e'] <;> dsimp only <;> rw [c1]

/-- when the constraint holds, that is the difference of the velocities of the two frames -/
theorem C59_velocity_6d_closed (h : s.Packed) (d d' : Data K) {q : ℕ → K} (hq : s.At q) (v : ℕ → K) {j1 j2 : ℕ}
    (hj1 : j1 < s.n) (hj2 : j2 < s.n) {P1 P2 : SE3 K} (hP1 : P1.Valid) (hP2 : P2.Valid) {rf : RF} {m : RCM K}
    (hm : RCM.make s .CONTACT_6D j1 P1 j2 P2 rf = some m) (hc : s.oM q j1 * P1 = s.oM q j2 * P2) {r : ℕ} (hr : r < 6) :
    jacTimes s m (computeJointJacobians s d q) v r =
      (getFrameVelocity (forwardKinematicsV s d' q v) j1 P1 rf
        - getFrameVelocity (forwardKinematicsV s d' q v) j2 P2 rf).row r :=
  C59_velocity_6d h d d' hq v hj1 hj2 hP1 hP2 hm hc.symm hr

/-- columns outside the span are not written, nor are rows past the size of the constraint; the other entries do not
depend on their previous content -/
theorem C59_untouched (s : Sys K) (m : RCM K) (d : Data K) (c : RCD K) (X X' : ℕ → ℕ → K) (r k : ℕ) :
    (¬ (k < s.nv ∧ (m.sp1 k = true ∨ m.sp2 k = true) ∧ r < m.type.dim) → m.jacobian s d c X r k = X r k) ∧
    (k < s.nv ∧ (m.sp1 k = true ∨ m.sp2 k = true) ∧ r < m.type.dim →
      m.jacobian s d c X r k = m.jacobian s d c X' r k) := by
  rw [jacobian_entry, jacobian_entry]
  have e := Bool.or_eq_true (m.sp1 k) (m.sp2 k)
  constructor
  · intro hh
    have : ¬ ((k < s.nv ∧ (m.sp1 k || m.sp2 k) = true) ∧ r < m.type.dim) := by rw [e]; tauto
    rw [if_neg this]
  · intro hh
    have : (k < s.nv ∧ (m.sp1 k || m.sp2 k) = true) ∧ r < m.type.dim := by rw [e]; tauto
    rw [if_pos this, if_pos this]

theorem jac_root (hp : ParOk s.par s.n) (d : Data K) (h0 : d.oMi 0 = 1) (q : ℕ → K) :
    (computeJointJacobians s d q).oMi 0 = 1 := by
  unfold computeJointJacobians
  apply fwd_ind (P := fun _ (d : Data K) => d.oMi 0 = 1) hp.1 h0
  intro i d h1 _ ih
  simp only [jacobianStep]
  exact (upd_ne _ _ (by omega)).trans ih

/-- `getConstraintJacobian` gives the matrix of `jacobian` and the placements of `calc`, if the placement of the
universe is the identity as the constructor of `Data` sets it. -/
theorem C59_getConstraintJacobian (h : s.Packed) {d : Data K} (h0 : d.oMi 0 = 1) {type : CType} {j1 j2 : ℕ} {P1 P2 : SE3 K}
    {rf : RF} {m : RCM K} (hj1 : j1 < s.n) (hj2 : j2 < s.n) (hm : RCM.make s type j1 P1 j2 P2 rf = some m)
    (X : ℕ → ℕ → K) :
    (getConstraintJacobian m d X).2 = m.calc d ∧ (getConstraintJacobian m d X).1 = m.jacobian s d (m.calc d) X := by
  obtain ⟨ok, -⟩ := make_ok h hj1 hj2 hm
  have e : ∀ j (P : SE3 K), (if j > 0 then d.oMi j * P else P) = d.oMi j * P := by
    intro j P
    split
    · rfl
    · have : j = 0 := by omega
      subst this
      rw [h0, SE3.one_mul]
  have hc : (getConstraintJacobian m d X).2 = m.calc d := by
    unfold getConstraintJacobian RCM.calc
    rw [e, e]
  refine ⟨hc, ?_⟩
  have e1 : ∀ c, (getConstraintJacobian m d X).2 = c → (getConstraintJacobian m d X).1 = m.span.foldl (fun X jj =>
      putCol X m.type.dim jj (m.getCol c (cSign (m.sp1 jj) (m.sp2 jj)) (d.J jj))) X := by rintro c rfl; rfl
  funext r k
  rw [e1 _ hc, foldl_putCol, jacobian_entry, getCol_eq]
  simp only [ok.span, List.mem_filter, List.mem_range]

/-- `getConstraintsJacobian` stacks the Jacobians of the constraints in order -/
theorem C59_stack (h : s.Packed) {d : Data K} (h0 : d.oMi 0 = 1) (X : ℕ → ℕ → K) (pre post : List (RCM K)) {type : CType}
    {j1 j2 : ℕ} {P1 P2 : SE3 K} {rf : RF} {m : RCM K} (hj1 : j1 < s.n) (hj2 : j2 < s.n)
    (hm : RCM.make s type j1 P1 j2 P2 rf = some m) {r : ℕ} (hr : r < m.type.dim) (c : ℕ) :
    getConstraintsJacobian (pre ++ m :: post) d X ((pre.map fun m => m.type.dim).sum + r) c
      = m.jacobian s d (m.calc d) (fun r c => X ((pre.map fun m => m.type.dim).sum + r) c) r c := by
  have key : ∀ (l : List (RCM K)) (Y : ℕ → ℕ → K) n,
      (l.foldl (fun (x : (ℕ → ℕ → K) × ℕ) m =>
        (putRows x.1 x.2 m.type.dim (getConstraintJacobian m d (fun r c => x.1 (x.2 + r) c)).1, x.2 + m.type.dim)) (Y, n)).2
        = n + (l.map fun m => m.type.dim).sum ∧
      ∀ r c, (r < n ∨ n + (l.map fun m => m.type.dim).sum ≤ r) → (l.foldl (fun (x : (ℕ → ℕ → K) × ℕ) m =>
        (putRows x.1 x.2 m.type.dim (getConstraintJacobian m d (fun r c => x.1 (x.2 + r) c)).1, x.2 + m.type.dim)) (Y, n)).1 r c
        = Y r c := by
    intro l
    induction l with
    | nil => intro Y n; exact ⟨rfl, fun _ _ _ => rfl⟩
    | cons a l ih =>
      intro Y n
      obtain ⟨i1, i2⟩ := ih (putRows Y n a.type.dim (getConstraintJacobian a d (fun r c => Y (n + r) c)).1) (n + a.type.dim)
      rw [List.foldl_cons]
      refine ⟨i1.trans (by simp [add_assoc]), fun r c hrc => ?_⟩
      rw [List.map_cons, List.sum_cons] at hrc
      refine (i2 r c (by omega)).trans ?_
      unfold putRows
      rw [if_neg (by omega)]
  unfold getConstraintsJacobian
  rw [List.foldl_append, List.foldl_cons]
  obtain ⟨a1, a2⟩ := key pre X 0
  generalize pre.foldl _ (X, 0) = z at *
  rw [zero_add] at a1
  have := (key post (putRows z.1 z.2 m.type.dim (getConstraintJacobian m d (fun r c => z.1 (z.2 + r) c)).1) (z.2 + m.type.dim)).2
    (z.2 + r) c (Or.inl (by omega))
  rw [← a1]
  refine this.trans ?_
  unfold putRows
  rw [if_pos (by omega), Nat.add_sub_cancel_left, (C59_getConstraintJacobian h h0 hj1 hj2 hm _).2]
  rw [jacobian_entry, jacobian_entry]
  split
  · rfl
  · exact a2 _ _ (Or.inr (by omega))

theorem A1_eq (c : RCD K) (J : Motion K) :
    c.A1 J = (linRot c.oMc1.rot.tr (translateLin c.oMc1 .LOCAL_WORLD_ALIGNED J)).lin := by
  ext <;> simp [RCD.A1, linRot, translateLin, translateCol] <;> ring

theorem A2_eq (c : RCD K) (J : Motion K) :
    c.A2 J = -(linRot c.oMc1.rot.tr (translateLin c.oMc2 .LOCAL_WORLD_ALIGNED J)).lin := by
  ext <;> simp [RCD.A2, linRot, translateLin, translateCol] <;> ring

theorem jacProduct_entry (m : RCM K) (d : Data K) (c : RCD K) (A : ℕ → ℕ → K) (r k : ℕ) :
    m.jacobianProduct s d c A r k = ∑ jj ∈ range s.nv, (if (m.sp1 jj || m.sp2 jj) = true then
      (⟨if (m.sp1 jj && m.sp2 jj) = true then c.A1 (d.J jj) + c.A2 (d.J jj)
        else if m.sp1 jj = true then c.A1 (d.J jj) else c.A2 (d.J jj), 0⟩ : Motion K).row r else 0) * A jj k := by
  unfold RCM.jacobianProduct
  apply upTo_ind (P := fun n (Y : ℕ → ℕ → K) => Y r k = ∑ jj ∈ range n, (if (m.sp1 jj || m.sp2 jj) = true then
      (⟨if (m.sp1 jj && m.sp2 jj) = true then c.A1 (d.J jj) + c.A2 (d.J jj)
        else if m.sp1 jj = true then c.A1 (d.J jj) else c.A2 (d.J jj), 0⟩ : Motion K).row r else 0) * A jj k)
  · rw [range_zero, sum_empty]
  · intro n Y _ ih
    rw [sum_range_succ, ← ih]
    by_cases hb : (m.sp1 n || m.sp2 n) = true
    · rw [hb, if_pos rfl]; rfl
    · rw [Bool.not_eq_true] at hb
      rw [hb]
      simp

/-- `jacobian_matrix_product` of a `CONTACT_3D` in the reference frame `LOCAL` is the product by the Jacobian -/
theorem C59_product_partial (h : s.Packed) (d : Data K) {q : ℕ → K} (hq : s.At q) {j1 j2 : ℕ} (hj1 : j1 < s.n)
    (hj2 : j2 < s.n) {P1 P2 : SE3 K} (hP1 : P1.Valid) (hP2 : P2.Valid) {m : RCM K}
    (hm : RCM.make s .CONTACT_3D j1 P1 j2 P2 .LOCAL = some m) (A : ℕ → ℕ → K) {r : ℕ} (hr : r < 3) (k : ℕ) :
    m.jacobianProduct s (computeJointJacobians s d q) (m.calc (computeJointJacobians s d q)) A r k
      = jacTimes s m (computeJointJacobians s d q) (fun jj => A jj k) r := by
  obtain ⟨ok, e, rfl, rfl, rfl, rfl, hrf⟩ := make_ok h hj1 hj2 hm
  obtain ⟨c0, -⟩ := calc_ok h d hq ok hP1 hP2
  have e' : m.rf = .LOCAL := by rcases hrf with ⟨-, x⟩ | ⟨x, -⟩; exacts [x, by cases x]
  rw [jacProduct_entry]
  unfold jacTimes
  apply sum_congr rfl
  intro jj hjj
  rw [mem_range] at hjj
  rw [jacobian_entry]
  congr 1
  by_cases hb : (m.sp1 jj || m.sp2 jj) = true
  · have hcond : (jj < s.nv ∧ (m.sp1 jj || m.sp2 jj) = true) ∧ r < m.type.dim := ⟨⟨hjj, hb⟩, by rw [e]; exact hr⟩
    rw [if_pos hb, if_pos hcond,
      jacCol_eq m c0 _ _ (fun x => by rw [e] at x; cases x) _ (by simpa using hb)]
    unfold RCM.L1 RCM.L2
    rw [e, e', A1_eq, A2_eq]
    have : ∀ x y : Motion K, x.lin = y.lin → x.row r = y.row r := by
      intro x y hxy
      rcases r with _ | _ | _ | r
      · simp [Motion.row, hxy]
      · simp [Motion.row, hxy]
      · simp [Motion.row, hxy]
      · omega
    apply this
    cases h1 : m.sp1 jj <;> cases h2 : m.sp2 jj
    · rw [h1, h2] at hb; cases hb
    all_goals simp [sub_eq_add_neg]
  · have hcond : ¬ ((jj < s.nv ∧ (m.sp1 jj || m.sp2 jj) = true) ∧ r < m.type.dim) := by tauto
    rw [if_neg hb, if_neg hcond]

/-! ## derivatives -/

theorem SE3.Moves.inv {Aε : SE3 K[ε]} {A : SE3 K} {ν : Motion K} (h : Aε.Moves A ν) (hA : A.Valid) :
    Aε.inv.Moves A.inv (-(A.act ν)) := by
  have hb : Aε.rot.map fst = A.rot := congrArg SE3.rot h.base
  have hbt : Aε.trans.map fst = A.trans := congrArg SE3.trans h.base
  have ht : Aε.rot.tr.map snd = M3.skew (-ν.ang) * A.rot.tr := by
    have : Aε.rot.tr.map snd = (Aε.rot.map snd).tr := by ext <;> rfl
    rw [this, h.rot]
    ext <;> simp [M3.skew, M3.tr, V3.dot] <;> ring
  have hbt' : Aε.rot.tr.map fst = A.rot.tr := by rw [← hb]; ext <;> rfl
  have hk : A.rot.tr * M3.skew (A.rot.mulVec (-ν.ang)) = M3.skew (-ν.ang) * A.rot.tr := by
    have h2 : A.rot.tr.IsRot := SE3.Valid.inv hA
    have := M3.skew_conj h2 (-ν.ang)
    have e : A.rot.tr.tr = A.rot := by ext <;> rfl
    rw [e] at this
    exact this.symm
  refine ⟨?_, ?_, ?_⟩
  · rw [← h.base]
    ext <;> simp [SE3.inv, SE3.map, M3.map, M3.tr, V3.map, M3.mulVec, V3.dot]
  · change Aε.rot.tr.map snd = A.rot.tr * M3.skew (-(A.rot.mulVec ν.ang))
    rw [ht, ← M3.mulVec_neg, hk]
  · have e1 : (Aε.inv).trans = -(Aε.rot.tr.mulVec Aε.trans) := rfl
    have e2 : ∀ x : V3 K[ε], (-x).map snd = -(x.map snd) := by intro x; ext <;> simp [V3.map]
    rw [e1, e2, M3.map_snd_mulVec, ht, hbt, hbt', h.trans, M3.mulVec_mulVec, M3.skew_mulVec,
      M3.IsRot.tr_mulVec_mulVec hA]
    have hcr : A.rot.tr.mulVec (A.trans.cross (A.rot.mulVec ν.ang))
        = (A.rot.tr.mulVec A.trans).cross (A.rot.tr.mulVec (A.rot.mulVec ν.ang)) :=
      M3.IsRot.mulVec_cross (R := A.rot.tr) (SE3.Valid.inv hA) _ _
    have e3 : (-(A.act ν)).lin = -(A.rot.mulVec ν.lin + A.trans.cross (A.rot.mulVec ν.ang)) := rfl
    change _ = A.rot.tr.mulVec _
    rw [e3, M3.mulVec_neg, M3.mulVec_add, M3.IsRot.tr_mulVec_mulVec hA, hcr,
      M3.IsRot.tr_mulVec_mulVec hA]
    ext <;> simp <;> ring

/-- the same constraint over `K[ε]` (Sys along a trajectory), with constant placements -/
theorem calc_moves (h : s.Packed) {q : ℕ → K} (hq : s.At q) (v dq : ℕ → K) {sε : Sys K[ε]} (hs : s.Along sε q v dq)
    (dε : Data K[ε]) {type : CType} {j1 j2 : ℕ} (hj1 : j1 < s.n) (hj2 : j2 < s.n) {P1 P2 : SE3 K} (hP1 : P1.Valid)
    (hP2 : P2.Valid) {rf : RF} {mε : RCM K[ε]} (hε : RCM.make sε type j1 (P1.map inl) j2 (P2.map inl) rf = some mε) :
    (mε.calc (computeJointJacobians sε dε (perturb q dq))).oMc1.Moves (s.oM q j1 * P1) (P1.actInv (s.V q v j1)) ∧
    (mε.calc (computeJointJacobians sε dε (perturb q dq))).oMc2.Moves (s.oM q j2 * P2) (P2.actInv (s.V q v j2)) ∧
    (mε.calc (computeJointJacobians sε dε (perturb q dq))).c1Mc2
      = (mε.calc (computeJointJacobians sε dε (perturb q dq))).oMc1.actInvSE3
        (mε.calc (computeJointJacobians sε dε (perturb q dq))).oMc2 := by
  have hp : sε.Packed := by
    refine ⟨by rw [hs.par, hs.n]; exact h.par, fun i h1 hi => ?_, ?_⟩
    · rw [hs.iv, h.iv i h1 (by rw [← hs.n]; exact hi)]
      exact sum_congr rfl fun j _ => (hs.jnv j).symm
    · rw [hs.nv, h.nv, hs.n]
      exact sum_congr rfl fun j _ => (hs.jnv j).symm
  obtain ⟨ok, -, rfl, rfl, e1, e2, -⟩ := make_ok hp (by rw [hs.n]; exact hj1) (by rw [hs.n]; exact hj2) hε
  rw [calc_eq (jac_ok hp dε (perturb q dq)).1 ok.j1 ok.j2, e1, e2]
  refine ⟨?_, ?_, rfl⟩
  · have := (Sys.oM_moves hs h.par hq _ hj1).mul (SE3.Moves.const (X := P1)) hP1
    rwa [zero_add] at this
  · have := (Sys.oM_moves hs h.par hq _ hj2).mul (SE3.Moves.const (X := P2)) hP2
    rwa [zero_add] at this

/-- Along a trajectory, the derivative of the difference of the positions of the two points is `J v`, for a
`CONTACT_3D` in `LOCAL_WORLD_ALIGNED`. -/
theorem C59_derivative_3d (h : s.Packed) (d : Data K) {q : ℕ → K} (hq : s.At q) (v dq : ℕ → K) {sε : Sys K[ε]}
    (hs : s.Along sε q v dq) (dε : Data K[ε]) {j1 j2 : ℕ} (hj1 : j1 < s.n) (hj2 : j2 < s.n) {P1 P2 : SE3 K}
    (hP1 : P1.Valid) (hP2 : P2.Valid) {m : RCM K} {mε : RCM K[ε]}
    (hm : RCM.make s .CONTACT_3D j1 P1 j2 P2 .LOCAL_WORLD_ALIGNED = some m)
    (hε : RCM.make sε .CONTACT_3D j1 (P1.map inl) j2 (P2.map inl) .LOCAL_WORLD_ALIGNED = some mε) {r : ℕ} (hr : r < 3) :
    let c := mε.calc (computeJointJacobians sε dε (perturb q dq))
    (⟨(c.oMc1.trans - c.oMc2.trans).map snd, 0⟩ : Motion K).row r = jacTimes s m (computeJointJacobians s d q) v r := by
  obtain ⟨m1, m2, -⟩ := calc_moves h hq v dq hs dε hj1 hj2 hP1 hP2 hε
  have hv1 := s.oM_valid h.par hq j1 hj1
  have hv2 := s.oM_valid h.par hq j2 hj2
  have key : ∀ j (P : SE3 K), (s.oM q j).Valid → P.Valid → (s.oM q j * P).rot.mulVec (P.actInv (s.V q v j)).lin
      = (translateLin (s.oM q j * P) .LOCAL_WORLD_ALIGNED (s.oV q v j)).lin := by
    intro j P hv hP
    have := congrArg Motion.lin (translateCol_act hv hP (s.V q v j) .LOCAL_WORLD_ALIGNED)
    have e : (s.oM q j * P).rot.mulVec (P.actInv (s.V q v j)).lin
        = (s.oM q j).rot.mulVec (P.rot.mulVec (P.rot.tr.mulVec ((s.V q v j).lin - P.trans.cross (s.V q v j).ang))) :=
      M3.mulVec_mulVec _ _ _
    rw [e, M3.IsRot.mulVec_tr_mulVec hP]
    refine Eq.trans ?_ this.symm
    change _ = (s.oM q j).rot.mulVec _
    congr 1
    ext <;> simp <;> ring
  rw [C59_velocity_3d h d Data.zero hq v hj1 hj2 hP1 hP2 hm hr]
  dsimp only
  rw [frameVelocity_eq h.par _ hq v hj1 hP1, frameVelocity_eq h.par _ hq v hj2 hP2]
  have e2 : ∀ x y : V3 K[ε], (x - y).map snd = x.map snd - y.map snd := by intro x y; ext <;> simp [V3.map]
  rw [e2, m1.trans, m2.trans, key j1 P1 hv1 hP1, key j2 P2 hv2 hP2]
  rcases r with _ | _ | _ | r
  · rfl
  · rfl
  · rfl
  · omega

/-- Along a trajectory, the placement of the second frame in the first one moves with minus the velocity `J v`, for a
`CONTACT_6D` in `LOCAL`. -/
theorem C59_derivative_6d (h : s.Packed) (d : Data K) {q : ℕ → K} (hq : s.At q) (v dq : ℕ → K) {sε : Sys K[ε]}
    (hs : s.Along sε q v dq) (dε : Data K[ε]) {j1 j2 : ℕ} (hj1 : j1 < s.n) (hj2 : j2 < s.n) {P1 P2 : SE3 K}
    (hP1 : P1.Valid) (hP2 : P2.Valid) {m : RCM K} {mε : RCM K[ε]}
    (hm : RCM.make s .CONTACT_6D j1 P1 j2 P2 .LOCAL = some m)
    (hε : RCM.make sε .CONTACT_6D j1 (P1.map inl) j2 (P2.map inl) .LOCAL = some mε) :
    let c := m.calc (computeJointJacobians s d q)
    ∃ u : Motion K, (∀ r, r < 6 → u.row r = jacTimes s m (computeJointJacobians s d q) v r) ∧
      (mε.calc (computeJointJacobians sε dε (perturb q dq))).c1Mc2.Moves c.c1Mc2 (-(c.c1Mc2.actInv u)) := by
  obtain ⟨m1, m2, m3⟩ := calc_moves h hq v dq hs dε hj1 hj2 hP1 hP2 hε
  have hv1 := s.oM_valid h.par hq j1 hj1
  have hv2 := s.oM_valid h.par hq j2 hj2
  have a1 := hv1.mul hP1
  have a2 := hv2.mul hP2
  obtain ⟨ok, e, rfl, rfl, rfl, rfl, hrf⟩ := make_ok h hj1 hj2 hm
  have hrf : m.rf = .LOCAL := by rcases hrf with ⟨-, x⟩ | ⟨x, -⟩; exacts [x, by cases x]
  obtain ⟨c0, c1, c2⟩ := calc_ok h d hq ok hP1 hP2
  refine ⟨(s.oM q m.j1 * m.P1).actInv (s.oV q v m.j1 - s.oV q v m.j2), fun r hr => ?_, ?_⟩
  · unfold jacTimes
    rw [jacobian_mul h hq ok c0 (jac_ok h d q).2 v (by rw [e]; exact hr)]
    unfold RCM.L1 RCM.L2
    rw [e, hrf]
    dsimp only
    rw [c1, ← map_sub]
    rfl
  · rw [c0.c12, c1, c2, m3, actInvSE3_inv, actInvSE3_inv]
    have := (m1.inv a1).mul m2 a2
    convert this using 1
    have f1 : ∀ j (P : SE3 K), (s.oM q j).Valid → P.Valid → P.actInv (s.V q v j) = (s.oM q j * P).actInv (s.oV q v j) := by
      intro j P hv hP
      rw [SE3.mul_actInv hv hP]
      unfold Sys.oV
      rw [SE3.actInv_act hv]
    rw [f1 _ _ hv1 hP1, f1 _ _ hv2 hP2, SE3.act_actInv a1, SE3.mul_actInv a1.inv a2]
    have f2 : ∀ x : Motion K, (s.oM q m.j1 * m.P1).inv.actInv ((s.oM q m.j1 * m.P1).actInv x) = x := by
      intro x
      have e3 := SE3.mul_actInv a1 a1.inv x
      rw [SE3.mul_inv a1] at e3
      rw [← e3]
      exact SE3.one_actInv x
    rw [f2, SE3.actInv_sub, SE3.actInv_neg]
    abel

/-! ## witnesses -/

/-- the hypotheses are met by constraints between two joints on different branches, and with the universe -/
example : Ex.sysA.Packed ∧ Ex.sysA.At Ex.qA ∧ Ex.mB.Valid ∧
    (∃ m, RCM.make Ex.sysA .CONTACT_3D 2 Ex.mB 4 Ex.mB .LOCAL = some m ∧ m.span = [0, 1, 2, 3, 4, 5]) ∧
    (∃ m, RCM.make Ex.sysA .CONTACT_6D 2 Ex.mB 4 Ex.mB .LOCAL_WORLD_ALIGNED = some m ∧ m.span = [1, 2, 3, 4, 5]) ∧
    (∃ m, RCM.make Ex.sysA .CONTACT_6D 2 Ex.mB 0 Ex.mB .LOCAL_WORLD_ALIGNED = some m ∧ m.span = [0, 1]) ∧
    (Data.zero : Data ℚ).oMi 0 = 1 :=
  ⟨Ex.sysA_packed, Ex.sysA_at, Ex.mB_valid, ⟨_, rfl, by decide +kernel⟩, ⟨_, rfl, by decide +kernel⟩,
    ⟨_, rfl, by decide +kernel⟩, rfl⟩

/-- a constraint of the model above, for the counterexample -/
def Ex.rcmW : RCM ℚ := RCM.make.go Ex.sysA .CONTACT_3D 2 Ex.mB 0 1 .LOCAL_WORLD_ALIGNED

set_option maxRecDepth 100000 in
/-- `RigidConstraintModel::jacobian_matrix_product` (`algorithm/contact-info.hpp:498-546`) ignores the reference frame:
for a `CONTACT_3D` in `LOCAL_WORLD_ALIGNED` it returns the product by the Jacobian of the same constraint in `LOCAL`,
not by the one that `jacobian` returns. -/
theorem C59_product_counterexample :
    let d := computeJointJacobians Ex.sysA Data.zero Ex.qA
    RCM.make Ex.sysA .CONTACT_3D 2 Ex.mB 0 1 .LOCAL_WORLD_ALIGNED = some Ex.rcmW ∧
    Ex.rcmW.jacobianProduct Ex.sysA d (Ex.rcmW.calc d) (fun _ _ => 1) 0 0
      ≠ jacTimes Ex.sysA Ex.rcmW d (fun _ => 1) 0 := by
  refine ⟨rfl, ?_⟩
  unfold jacTimes
  decide +kernel

end Pin
