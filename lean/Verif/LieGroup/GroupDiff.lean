import Verif.LieGroup.GroupDeriv
import Mathlib.Analysis.SpecialFunctions.Complex.LogDeriv

/-! # Derivatives of the differences of the groups -/

namespace Pin
namespace Spec
open Lie Real

variable {t : ℝ}

/-- velocity of the inverse of a pose -/
theorem BodyVel.inv {A : ℝ → SE3 ℝ} {a : Motion ℝ} (hA : BodyVel A a t) (hr : (A t).rot.IsRot) :
    BodyVel (fun s => (A s).inv) (-(A t).act a) t := by
  have h2 := hr.tr_mul
  have hk := skew_conj hr ((A t).rot.mulVec a.ang)
  rw [← M3.mulVec_mulVec, h2, M3.one_mulVec] at hk
  have hk' : M3.skew a.ang * (A t).rot.tr = (A t).rot.tr * M3.skew ((A t).rot.mulVec a.ang) := by
    rw [hk, M3.mul_assoc', hr.mul_tr, M3.mul_one']
  refine ⟨?_, ?_⟩
  · refine MDeriv.congr hA.ang.tr ?_
    show ((A t).rot * M3.skew a.ang).tr = (A t).rot.tr * M3.skew (-((A t).rot.mulVec a.ang))
    have e1 : ((A t).rot * M3.skew a.ang).tr = -(M3.skew a.ang * (A t).rot.tr) := by m3ring
    have e2 : ∀ x : V3 ℝ, M3.skew (-x) = -M3.skew x := fun x => by m3ring
    rw [e1, e2, hk']
    m3ring
  · refine VDeriv.congr (hA.ang.tr.mulVec hA.lin).neg ?_
    show -(((A t).rot * M3.skew a.ang).tr.mulVec (A t).trans + (A t).rot.tr.mulVec ((A t).rot.mulVec a.lin)) =
      (A t).rot.tr.mulVec (-((A t).rot.mulVec a.lin + (A t).trans.cross ((A t).rot.mulVec a.ang)))
    have e1 : ((A t).rot * M3.skew a.ang).tr = -(M3.skew a.ang * (A t).rot.tr) := by m3ring
    have e2 : ∀ x y : V3 ℝ, x.cross y = -(M3.skew y).mulVec x := fun x y => by m3ring
    rw [e1, hk', e2, ← M3.mulVec_mulVec, h2, M3.one_mulVec]
    have e3 : (A t).rot.tr.mulVec (-((A t).rot.mulVec a.lin + -(M3.skew ((A t).rot.mulVec a.ang)).mulVec (A t).trans)) =
      -(((A t).rot.tr * (A t).rot).mulVec a.lin) +
        ((A t).rot.tr * M3.skew ((A t).rot.mulVec a.ang)).mulVec (A t).trans := by m3ring
    rw [e3, h2]
    m3ring

end Spec

namespace Lie
open Real Spec

theorem qrot_eq (q : Quat ℝ) (v : V3 ℝ) : qrot q v = q.toMat.mulVec v := by
  unfold qrot qvec Quat.toMat quatMat
  m3ring

theorem pose_valid {g : LG} {q : ℕ → ℝ} (h : g.Unit q) : (poseOf g q).rot.IsRot := by
  have pl : ∀ c s x y : ℝ, c * c + s * s = 1 → (planar c s x y).rot.IsRot := fun c s x y h => by
    unfold planar
    refine ⟨?_, ?_⟩
    · ext <;> m3simp <;> first | ring1 | linear_combination h
    · unfold M3.det; linear_combination h
  cases g with
  | vec n => exact M3.IsRot.one
  | so2 =>
    have h : LG.sqn q 0 2 = 1 := h
    rw [sqn_so2] at h
    exact pl _ _ _ _ h
  | so3 =>
    have h : LG.sqn q 0 4 = 1 := h
    refine quatMat_rot ?_
    simpa [LG.sqn, Finset.sum_range_succ, quatAt] using h
  | se2 =>
    have h : LG.sqn q 2 2 = 1 := h
    refine pl _ _ _ _ ?_
    simpa [LG.sqn, Finset.sum_range_succ] using h
  | se3 =>
    have h : LG.sqn q 3 4 = 1 := h
    refine quatMat_rot ?_
    simpa [LG.sqn, Finset.sum_range_succ, quatAt] using h

/-- the relative pose -/
noncomputable def rel (g : LG) (q0 q1 : ℕ → ℝ) : SE3 ℝ := (poseOf g q0).inv * poseOf g q1

theorem rel_valid {g : LG} {q0 q1 : ℕ → ℝ} (h0 : g.Unit q0) (h1 : g.Unit q1) : (rel g q0 q1).rot.IsRot :=
  M3.IsRot.mul (M3.IsRot.tr (pose_valid h0)) (pose_valid h1)

theorem se3_mul_assoc (a b c : SE3 ℝ) : a * b * c = a * (b * c) := by
  refine SE3.ext (M3.mul_assoc' _ _ _) ?_
  show a.trans + a.rot.mulVec b.trans + (a.rot * b.rot).mulVec c.trans = a.trans + a.rot.mulVec (b.trans + b.rot.mulVec c.trans)
  m3ring

theorem se3_one_mul (a : SE3 ℝ) : (1 : SE3 ℝ) * a = a := by
  refine SE3.ext (M3.one_mul' _) ?_
  show (0 : V3 ℝ) + (1 : M3 ℝ).mulVec a.trans = a.trans
  m3ring

theorem rel_of_step {g : LG} {q0 q1 d : ℕ → ℝ} (hg : ∀ n, g ≠ .vec n) (h0 : g.Unit q0) (h : IsStep g q0 d q1) :
    rel g q0 q1 = Pose (twistOf g d) := by
  have key : ∀ g : LG, g.Unit q0 → (∃ E, IsExp6 (twistOf g d) E ∧ poseOf g q1 = poseOf g q0 * E) →
      rel g q0 q1 = Pose (twistOf g d) := by
    rintro g h0 ⟨E, hE, e⟩
    rw [isExp6_iff] at hE
    unfold rel
    rw [e, ← se3_mul_assoc, SE3.inv_mul (pose_valid h0), se3_one_mul, hE]
  cases g with
  | vec n => exact absurd rfl (hg n)
  | _ => exact key _ h0 h

theorem rel_vel {g : LG} {q0 q1 : ℝ → ℕ → ℝ} {a b : Motion ℝ} {t : ℝ} (h0 : ∀ s, g.Unit (q0 s))
    (h1 : ∀ s, g.Unit (q1 s)) (ha : BodyVel (fun s => poseOf g (q0 s)) a t)
    (hb : BodyVel (fun s => poseOf g (q1 s)) b t) :
    BodyVel (fun s => rel g (q0 s) (q1 s)) (b - (rel g (q0 t) (q1 t)).actInv a) t := by
  refine ((ha.inv (pose_valid (h0 t))).mul hb (pose_valid (h1 t))).congr ?_
  have v0 : (poseOf g (q0 t)).Valid := pose_valid (h0 t)
  have v1 : (poseOf g (q1 t)).Valid := pose_valid (h1 t)
  unfold rel
  rw [SE3.mul_actInv v0.inv v1, ← SE3.inv_act v0.inv, SE3.inv_inv v0, SE3.actInv_neg]
  exact neg_add_eq_sub _ _

theorem interior_of {ε : ℝ} {w : V3 ℝ} (h : prec ε 2 < 1 + cos (norm3 w) ∧ prec ε 2 < 2 * (1 - cos (norm3 w))) :
    Interior ε (Rot w) := by
  constructor <;> rw [trace_Rot] <;> linarith [h.1, h.2]

theorem nomvec_of {ε : ℝ} {w : V3 ℝ} (h : Interior ε (Rot w)) (hl : w.sqNorm < π ^ 2) : NomVec ε w := by
  have h1 := h.lo
  have h2 := h.hi
  rw [trace_Rot] at h1 h2
  refine ⟨?_, by linarith, by linarith⟩
  have := norm3_sq w
  exact lt_of_pow_lt_pow_left₀ 2 pi_pos.le (by rw [pow_two, this]; exact hl)

theorem interior_nhds {ε : ℝ} {R : ℝ → M3 ℝ} {ω : V3 ℝ} {t : ℝ} (hv : AngVel R ω t) (h : Interior ε (R t)) :
    ∀ᶠ s in nhds t, Interior ε (R s) := by
  have hTc : ContinuousAt (fun s => trace (R s)) t := ((hv.m00.add hv.m11).add hv.m22).continuousAt
  filter_upwards [hTc.eventually_const_lt h.lo, hTc.eventually_lt_const h.hi] with s a b using ⟨a, b⟩

/-- derivative of the logarithm of a moving pose, for any curve of logarithms -/
theorem d_log_pose {ε : ℝ} (he : 0 < ε) (h1 : ε ≤ 1) {E : ℝ → SE3 ℝ} {d : ℝ → Motion ℝ} {ν : Motion ℝ} {t : ℝ}
    (hr : ∀ s, (E s).rot.IsRot) (hE : ∀ s, E s = Pose (d s)) (hl : ∀ s, (d s).ang.sqNorm < π ^ 2)
    (hv : BodyVel E ν t) (hi : Interior ε (E t).rot) :
    VDeriv (fun s => (d s).lin) ((J6i (d t).ang (E t).trans).mulMM ν).lin t ∧
      VDeriv (fun s => (d s).ang) ((J6i (d t).ang (E t).trans).mulMM ν).ang t := by
  have hnear := interior_nhds hv.ang hi
  have key : ∀ s, Interior ε (E s).rot → mlog3 ε (E s).rot = ((d s).ang, norm3 (d s).ang) ∧ mlog6 ε (E s) = d s := by
    intro s hs
    have e : (E s).rot = Rot (d s).ang := by rw [hE s]; rfl
    have hN := nomvec_of (e ▸ hs) (hl s)
    have h3 := hN.mlog3 he h1
    rw [← e] at h3
    refine ⟨h3, ?_⟩
    have hn := hs.nominal (hr s)
    rw [hn.mlog6 he h1 hs.hi, h3]
    have hc := hn.cos_ne he h1
    rw [h3] at hc
    refine Motion.ext ?_ rfl
    show (Jli (d s).ang).mulVec (E s).trans = (d s).lin
    rw [hE s]
    show (Jli (d s).ang).mulVec ((Jl (d s).ang).mulVec (d s).lin) = (d s).lin
    rw [← M3.mulVec_mulVec, Jli_mul hc, M3.one_mulVec]
  obtain ⟨a, b⟩ := d_mlog6 he h1 hr hv hi
  rw [(key t hi).1] at a b
  exact ⟨vd_eventually a (hnear.mono fun s hs => by rw [(key s hs).2]),
    vd_eventually b (hnear.mono fun s hs => by rw [(key s hs).2])⟩

/-- derivative of the logarithm of a moving rotation, for any curve of logarithms -/
theorem d_log_rot {ε : ℝ} (he : 0 < ε) (h1 : ε ≤ 1) {R : ℝ → M3 ℝ} {d : ℝ → V3 ℝ} {ω : V3 ℝ} {t : ℝ}
    (hr : ∀ s, (R s).IsRot) (hE : ∀ s, R s = Rot (d s)) (hl : ∀ s, (d s).sqNorm < π ^ 2)
    (hv : AngVel R ω t) (hi : Interior ε (R t)) :
    VDeriv d ((Jlog3R ε (R t)).mulVec ω) t := by
  have key : ∀ s, Interior ε (R s) → mlog3 ε (R s) = (d s, norm3 (d s)) := fun s hs => by
    have := (nomvec_of (hE s ▸ hs) (hl s)).mlog3 he h1
    rwa [← hE s] at this
  have a := d_mlog3 he h1 hr hv hi
  rw [← (hi.nominal (hr t)).Jlog3R he h1] at a
  exact vd_eventually a ((interior_nhds hv hi).mono fun s hs => by rw [key s hs])


/-- derivative of the angle of a moving planar rotation -/
theorem d_angle {c s θ : ℝ → ℝ} {ω t : ℝ} (hc : HasDerivAt c (-s t * ω) t) (hs : HasDerivAt s (c t * ω) t)
    (ec : ∀ u, c u = cos (θ u)) (es : ∀ u, s u = sin (θ u)) (hl : ∀ u, -π < θ u ∧ θ u < π) : HasDerivAt θ ω t := by
  have hf : HasDerivAt (fun u => (c u : ℂ) + (s u : ℂ) * Complex.I)
      (((-s t * ω : ℝ) : ℂ) + ((c t * ω : ℝ) : ℂ) * Complex.I) t :=
    hc.ofReal_comp.add (hs.ofReal_comp.mul_const _)
  have hθ : ∀ u, θ u = (Complex.log ((c u : ℂ) + (s u : ℂ) * Complex.I)).im := fun u => by
    rw [Complex.log_im, ec, es, Complex.ofReal_cos, Complex.ofReal_sin,
      Complex.arg_cos_add_sin_mul_I ⟨(hl u).1, (hl u).2.le⟩]
  have hsl : (c t : ℂ) + (s t : ℂ) * Complex.I ∈ Complex.slitPlane := by
    rw [Complex.mem_slitPlane_iff]
    by_cases h0 : θ t = 0
    · left
      simp [ec, h0]
    · right
      simp only [es, Complex.add_im, Complex.ofReal_im, Complex.mul_im, Complex.ofReal_re, Complex.I_im, Complex.I_re,
        mul_one, mul_zero, add_zero, zero_add]
      rcases lt_or_gt_of_ne h0 with h | h
      · exact (sin_neg_of_neg_of_neg_pi_lt h (hl t).1).ne
      · exact (sin_pos_of_pos_of_lt_pi h (hl t).2).ne'
  have hL := hf.clog_real hsl
  have hd : (((-s t * ω : ℝ) : ℂ) + ((c t * ω : ℝ) : ℂ) * Complex.I) / ((c t : ℂ) + (s t : ℂ) * Complex.I) =
      (ω : ℂ) * Complex.I := by
    rw [div_eq_iff (Complex.slitPlane_ne_zero hsl)]
    push_cast
    linear_combination (s t * ω : ℂ) * -Complex.I_mul_I
  rw [hd] at hL
  have := (Complex.imCLM.hasFDerivAt.comp_hasDerivAt t hL)
  have e : θ = fun u => Complex.imCLM (Complex.log ((c u : ℂ) + (s u : ℂ) * Complex.I)) := funext hθ
  rw [e]
  refine this.congr_deriv ?_
  simp

theorem rel_se3 (q0 q1 : ℕ → ℝ) (h0 : LG.se3.Unit q0) (h1 : LG.se3.Unit q1) : rel .se3 q0 q1 =
    ⟨((quatAt q0 3).conj * quatAt q1 3).toMat, qrot (quatAt q0 3).conj (vecAt q1 0 - vecAt q0 0)⟩ := by
  have u0 : (quatAt q0 3).sqNorm = 1 := by
    have h : LG.sqn q0 3 4 = 1 := h0
    simpa [LG.sqn, Finset.sum_range_succ, quatAt, Quat.sqNorm] using h
  have u1 : (quatAt q1 3).sqNorm = 1 := by
    have h : LG.sqn q1 3 4 = 1 := h1
    simpa [LG.sqn, Finset.sum_range_succ, quatAt, Quat.sqNorm] using h
  have uc : (quatAt q0 3).conj.sqNorm = 1 := by rw [← u0]; unfold Quat.sqNorm Quat.conj; ring
  rw [Quat.toMat_mul uc u1, qrot_eq, Quat.toMat_conj]
  refine SE3.ext rfl ?_
  show -((quatAt q0 3).toMat.tr.mulVec (vecAt q0 0)) + (quatAt q0 3).toMat.tr.mulVec (vecAt q1 0) = _
  m3ring

theorem rel_so3 (q0 q1 : ℕ → ℝ) (h0 : LG.so3.Unit q0) (h1 : LG.so3.Unit q1) : rel .so3 q0 q1 =
    ⟨((quatAt q0 0).conj * quatAt q1 0).toMat, 0⟩ := by
  have u0 : (quatAt q0 0).sqNorm = 1 := by
    have h : LG.sqn q0 0 4 = 1 := h0
    simpa [LG.sqn, Finset.sum_range_succ, quatAt, Quat.sqNorm] using h
  have u1 : (quatAt q1 0).sqNorm = 1 := by
    have h : LG.sqn q1 0 4 = 1 := h1
    simpa [LG.sqn, Finset.sum_range_succ, quatAt, Quat.sqNorm] using h
  have uc : (quatAt q0 0).conj.sqNorm = 1 := by rw [← u0]; unfold Quat.sqNorm Quat.conj; ring
  rw [Quat.toMat_mul uc u1, Quat.toMat_conj]
  refine SE3.ext rfl ?_
  show -((quatAt q0 0).toMat.tr.mulVec 0) + (quatAt q0 0).toMat.tr.mulVec 0 = _
  m3ring

theorem mul_mulMM (A B : M6 ℝ) (a : Motion ℝ) : (A * B).mulMM a = A.mulMM (B.mulMM a) := by
  refine Motion.ext ?_ ?_
  · show (A.ll * B.ll + A.la * B.al).mulVec a.lin + (A.ll * B.la + A.la * B.aa).mulVec a.ang =
      A.ll.mulVec (B.ll.mulVec a.lin + B.la.mulVec a.ang) + A.la.mulVec (B.al.mulVec a.lin + B.aa.mulVec a.ang)
    rw [M3.add_mulVec, M3.add_mulVec, M3.mulVec_add, M3.mulVec_add]
    simp only [M3.mulVec_mulVec]
    abel
  · show (A.al * B.ll + A.aa * B.al).mulVec a.lin + (A.al * B.la + A.aa * B.aa).mulVec a.ang =
      A.al.mulVec (B.ll.mulVec a.lin + B.la.mulVec a.ang) + A.aa.mulVec (B.al.mulVec a.lin + B.aa.mulVec a.ang)
    rw [M3.add_mulVec, M3.add_mulVec, M3.mulVec_add, M3.mulVec_add]
    simp only [M3.mulVec_mulVec]
    abel

theorem planar_actInv (e : ℝ × ℝ × ℝ × ℝ) (x : ℕ → ℝ) :
    (planar e.1 e.2.1 e.2.2.1 e.2.2.2).actInv (twistOf .se2 x) = twistOf .se2 (Spec.apply 3 (se2InvAct e) x) := by
  unfold SE3.actInv planar twistOf Spec.apply se2InvAct
  ext <;> simp [Finset.sum_range_succ] <;> ring

theorem planar_J6i (x a b : ℝ) : Planar (J6i ⟨0, 0, x⟩ ⟨a, b, 0⟩) := by
  unfold J6i jexp6J Jri pw
  constructor <;> m3simp <;> ring

theorem exists_interior {x : ℝ} (h1 : cos x ≠ 1) (h2 : cos x ≠ -1) : ∃ ε : ℝ, 0 < ε ∧ ε ≤ 1 ∧ Interior ε (Rot ⟨0, 0, x⟩) := by
  have a : 0 < 1 - cos x := sub_pos.2 (lt_of_le_of_ne (cos_le_one x) h1)
  have b : 0 < 1 + cos x := by
    have := lt_of_le_of_ne (neg_one_le_cos x) (Ne.symm h2); linarith
  have a2 := neg_one_le_cos x
  have b2 := cos_le_one x
  obtain ⟨y, hy0, hy1, hya, hyb⟩ : ∃ y : ℝ, 0 < y ∧ y ≤ 1 ∧ y < 1 + cos x ∧ y < 2 * (1 - cos x) := by
    refine ⟨min (1 - cos x) (1 + cos x) / 2, by positivity, ?_, ?_, ?_⟩
    · have := min_le_left (1 - cos x) (1 + cos x); linarith
    · have := min_le_right (1 - cos x) (1 + cos x); linarith
    · have := min_le_left (1 - cos x) (1 + cos x); linarith
  have hp : prec (y ^ 3) 2 = y := by
    unfold prec
    rw [← rpow_natCast y 3, ← rpow_mul hy0.le]
    norm_num
  refine ⟨y ^ 3, by positivity, pow_le_one₀ hy0.le hy1, interior_of ?_⟩
  rw [hp, cos_z]
  exact ⟨hya, hyb⟩

/-- the Jacobian of the SE(2) logarithm is the corner of the exact Jacobian -/
theorem se2Jlog_eq {c s θ p0 p1 : ℝ} (hc : c = cos θ) (hs : s = sin θ) (hl : so2Log c (-s) s c = θ)
    (ht : 1 / 10 ^ 4 ≤ |θ|) (h1 : cos θ ≠ 1) {i j : ℕ} (hi : i < 3) (hj : j < 3) :
    se2Jlog c (-s) s c p0 p1 i j = m6e (J6i ⟨0, 0, θ⟩ ⟨p0, p1, 0⟩) (se2Idx i) (se2Idx j) := by
  have h0 : θ ≠ 0 := by rintro rfl; exact h1 cos_zero
  have hm : 1 - cos θ ≠ 0 := sub_ne_zero.2 (Ne.symm h1)
  have h2 := sin_sq_add_cos_sq θ
  have hE : cE ⟨0, 0, θ⟩ = 1 / (θ * θ) - sin θ / θ / (2 * (1 - cos θ)) := by
    unfold cE; rw [cB_z, cos_z, sqNorm_def]; simp only [mul_zero, zero_add]
  have hF : cF ⟨0, 0, θ⟩ = -2 / (θ * θ * (θ * θ)) + (1 + sin θ / θ) / (θ * θ * (2 * (1 - cos θ))) := by
    unfold cF; rw [cB_z, cos_z, sqNorm_def]; simp only [mul_zero, zero_add]
  have hS : (⟨0, 0, θ⟩ : V3 ℝ).sqNorm = θ * θ := by rw [sqNorm_def]; simp only [mul_zero, zero_add]
  unfold se2Jlog J6i jexp6J Jri pw
  rw [hl, hE, hF, hS, hc, hs]
  dsimp only
  simp only [if_neg (not_lt.2 ht)]
  interval_cases i <;> interval_cases j <;> simp [m6e, se2Idx, m3e] <;> m3simp <;> field_simp <;>
    first | ring1 | linear_combination h2 | linear_combination -h2 | linear_combination θ * h2 | linear_combination -θ * h2 | linear_combination θ ^ 3 * h2 |
      linear_combination -θ ^ 3 * h2

theorem se3_arg0 (J : M6 ℝ) {M : SE3 ℝ} (h : M.rot.IsRot) (p10 : V3 ℝ) (hp : p10 = M.rot.tr.mulVec M.trans) (a : Motion ℝ) :
    (J * ⟨-M.rot.tr, M3.skew p10 * M.rot.tr, 0, -M.rot.tr⟩ : M6 ℝ).mulMM a = J.mulMM (-(M.actInv a)) := by
  have e : (⟨-M.rot.tr, M3.skew p10 * M.rot.tr, 0, -M.rot.tr⟩ : M6 ℝ).mulMM a = -(M.actInv a) := by
    unfold M6.mulMM SE3.actInv
    rw [hp, skew_conj h]
    refine Motion.ext ?_ ?_
    · show (-M.rot.tr).mulVec a.lin + (M.rot.tr * M3.skew M.trans * M.rot * M.rot.tr).mulVec a.ang =
        -(M.rot.tr.mulVec (a.lin - M.trans.cross a.ang))
      rw [M3.mul_assoc' _ M.rot, h.mul_tr, M3.mul_one']
      m3ring
    · show (0 : M3 ℝ).mulVec a.lin + (-M.rot.tr).mulVec a.ang = -(M.rot.tr.mulVec a.ang)
      m3ring
  rw [← e]
  exact mul_mulMM _ _ _

theorem mulMM_sub (J : M6 ℝ) (a b : Motion ℝ) : J.mulMM (a - b) = J.mulMM (-b) + J.mulMM a := by
  unfold M6.mulMM
  ext <;> simp <;> ring

theorem se2_arg0 {q0 q1 : ℕ → ℝ} (n0 : q0 2 * q0 2 + q0 3 * q0 3 = 1) (i : ℕ) {j : ℕ} (hj : j < 3) :
    se2DDiff .arg0 q0 q1 i j = -(se2DDiff .arg1 q0 q1 i 0 * se2InvAct (q0 2 * q1 2 + q0 3 * q1 3, q0 2 * q1 3 - q0 3 * q1 2,
        q0 2 * (q1 0 - q0 0) + q0 3 * (q1 1 - q0 1), -q0 3 * (q1 0 - q0 0) + q0 2 * (q1 1 - q0 1)) 0 j +
      se2DDiff .arg1 q0 q1 i 1 * se2InvAct (q0 2 * q1 2 + q0 3 * q1 3, q0 2 * q1 3 - q0 3 * q1 2,
        q0 2 * (q1 0 - q0 0) + q0 3 * (q1 1 - q0 1), -q0 3 * (q1 0 - q0 0) + q0 2 * (q1 1 - q0 1)) 1 j +
      se2DDiff .arg1 q0 q1 i 2 * se2InvAct (q0 2 * q1 2 + q0 3 * q1 3, q0 2 * q1 3 - q0 3 * q1 2,
        q0 2 * (q1 0 - q0 0) + q0 3 * (q1 1 - q0 1), -q0 3 * (q1 0 - q0 0) + q0 2 * (q1 1 - q0 1)) 2 j) := by
  have e : se2DDiff .arg0 q0 q1 i j = se2DDiff .arg1 q0 q1 i 0 *
      (if j = 0 then -(q0 2 * q1 2 + q0 3 * q1 3) else if j = 1 then -(-q0 3 * q1 2 + q0 2 * q1 3) else
        q1 2 * (q1 1 - q0 1) + q1 3 * (q0 0 - q1 0)) + se2DDiff .arg1 q0 q1 i 1 *
      (if j = 0 then -(q0 2 * (-q1 3) + q0 3 * q1 2) else if j = 1 then -(-q0 3 * (-q1 3) + q0 2 * q1 2) else
        -q1 3 * (q1 1 - q0 1) + q1 2 * (q0 0 - q1 0)) + se2DDiff .arg1 q0 q1 i 2 * (if j = 2 then -1 else 0) := rfl
  rw [e]
  generalize se2DDiff .arg1 q0 q1 i 0 = a
  generalize se2DDiff .arg1 q0 q1 i 1 = b
  generalize se2DDiff .arg1 q0 q1 i 2 = c
  unfold se2InvAct
  interval_cases j
  · simp; ring
  · simp; ring
  · simp
    linear_combination (a * (q1 3 * (q1 0 - q0 0) - q1 2 * (q1 1 - q0 1)) + b * (q1 2 * (q1 0 - q0 0) + q1 3 * (q1 1 - q0 1))) * n0

theorem d_diff {ε : ℝ} (he : 0 < ε) (h1 : ε ≤ 1) (g : LG) {q0 q1 d : ℝ → ℕ → ℝ} {δ0 δ1 : ℕ → ℝ} {t : ℝ}
    (hok : DiffOk ε g (d t)) (u0 : ∀ s, g.Unit (q0 s)) (u1 : ∀ s, g.Unit (q1 s))
    (h0 : ConfVel g q0 δ0 t) (hq1 : ConfVel g q1 δ1 t) (hd : ∀ s, IsDiff g (q0 s) (q1 s) (d s)) :
    ∀ k, k < g.nv → HasDerivAt (fun s => d s k) (Spec.apply g.nv (g.dDiff ε .arg0 (q0 t) (q1 t)) δ0 k +
      Spec.apply g.nv (g.dDiff ε .arg1 (q0 t) (q1 t)) δ1 k) t := by
  cases g with
  | vec n =>
    intro k hk
    have e : (fun s => d s k) = fun s => q1 s k - q0 s k := funext fun s => by
      have : q1 s k = q0 s k + d s k := (hd s).step k hk
      rw [this]; ring
    rw [e]
    refine ((hq1 k hk).sub (h0 k hk)).congr_deriv ?_
    unfold Spec.apply LG.dDiff
    simp only [ite_mul, neg_mul, one_mul, zero_mul, Finset.sum_neg_distrib]
    rw [Finset.sum_ite_eq, Finset.sum_ite_eq, if_pos (Finset.mem_range.2 hk), if_pos (Finset.mem_range.2 hk)]
    ring
  | so2 =>
    have hv := rel_vel u0 u1 h0 hq1
    have hrel : ∀ s, rel .so2 (q0 s) (q1 s) = planar (cos (d s 0)) (sin (d s 0)) 0 0 := fun s => by
      rw [rel_of_step (fun _ => by simp) (u0 s) (hd s).step]
      exact Pose_z0 _
    rw [hrel t] at hv
    have hv := hv.fcongr (fun s => (hrel s).symm)
    have hc := hv.ang.m00
    have hs := hv.ang.m10
    intro k hk
    have hk0 : k = 0 := by have : k < 1 := hk; omega
    subst hk0
    refine d_angle (c := fun u => cos (d u 0)) (s := fun u => sin (d u 0)) ?_ ?_ (fun _ => rfl) (fun _ => rfl) ?_
    · refine hc.congr_deriv ?_
      unfold planar SE3.actInv twistOf Spec.apply LG.dDiff
      simp [LG.nv]
      m3simp
      ring
    · refine hs.congr_deriv ?_
      unfold planar SE3.actInv twistOf Spec.apply LG.dDiff
      simp [LG.nv]
      m3simp
      ring
    · intro u
      have := (hd u).lt
      have e : (twistOf .so2 (d u)).ang.sqNorm = d u 0 ^ 2 := by
        show (⟨0, 0, d u 0⟩ : V3 ℝ).sqNorm = _
        rw [sqNorm_def]; ring
      rw [e] at this
      exact abs_lt_of_sq_lt_sq' this pi_pos.le
  | so3 =>
    have hv := rel_vel u0 u1 h0 hq1
    have hrel : ∀ s, (rel .so3 (q0 s) (q1 s)).rot = Rot (vecAt (d s) 0) := fun s => by
      rw [rel_of_step (fun _ => by simp) (u0 s) (hd s).step]; rfl
    have hi : Interior ε (rel .so3 (q0 t) (q1 t)).rot := by rw [hrel t]; exact interior_of hok
    have key := d_log_rot he h1 (fun s => rel_valid (u0 s) (u1 s)) hrel (fun s => (hd s).lt) hv.ang hi
    have e : vecAt (fun k => Spec.apply 3 (LG.so3.dDiff ε .arg0 (q0 t) (q1 t)) δ0 k +
        Spec.apply 3 (LG.so3.dDiff ε .arg1 (q0 t) (q1 t)) δ1 k) 0 =
        (Jlog3R ε (rel .so3 (q0 t) (q1 t)).rot).mulVec (twistOf .so3 δ1 - (rel .so3 (q0 t) (q1 t)).actInv (twistOf .so3 δ0)).ang := by
      have hR : ((quatAt (q0 t) 0).conj * quatAt (q1 t) 0).toMat = (rel .so3 (q0 t) (q1 t)).rot := by
        rw [rel_so3 _ _ (u0 t) (u1 t)]
      rw [vecAt_add]
      unfold LG.dDiff
      simp only [hR]
      rw [mulVec_ent, mulVec_ent]
      show (-(Jlog3R ε (rel .so3 (q0 t) (q1 t)).rot) * (rel .so3 (q0 t) (q1 t)).rot.tr).mulVec (vecAt δ0 0) + _ =
        (Jlog3R ε (rel .so3 (q0 t) (q1 t)).rot).mulVec (vecAt δ1 0 - (rel .so3 (q0 t) (q1 t)).rot.tr.mulVec (vecAt δ0 0))
      m3ring
    rw [← e] at key
    intro k hk
    have hk : k < 3 := hk
    interval_cases k
    exacts [key.x, key.y, key.z]
  | se2 =>
    have hv := rel_vel u0 u1 h0 hq1
    have hrel : ∀ s, rel .se2 (q0 s) (q1 s) = Pose (twistOf .se2 (d s)) := fun s =>
      rel_of_step (fun _ => by simp) (u0 s) (hd s).step
    have hsq : ∀ u, (twistOf .se2 (d u)).ang.sqNorm = d u 2 ^ 2 := fun u => by
      show (⟨0, 0, d u 2⟩ : V3 ℝ).sqNorm = _
      rw [sqNorm_def]; ring
    have hlt : -π < d t 2 ∧ d t 2 < π := by
      have := (hd t).lt
      rw [hsq] at this
      exact abs_lt_of_sq_lt_sq' this pi_pos.le
    have ht : (1 : ℝ) / 10 ^ 4 ≤ |d t 2| := hok
    have hz : d t 2 ≠ 0 := by intro e; rw [e, abs_zero] at ht; norm_num at ht
    have hsn : sin (d t 2) ≠ 0 := by
      rcases lt_or_gt_of_ne hz with h | h
      · exact (sin_neg_of_neg_of_neg_pi_lt h hlt.1).ne
      · exact (sin_pos_of_pos_of_lt_pi h hlt.2).ne'
    have hsc := sin_sq_add_cos_sq (d t 2)
    have c1 : cos (d t 2) ≠ 1 := fun e => hsn (by rw [e] at hsc; exact pow_eq_zero_iff two_ne_zero |>.1 (by linarith))
    have c2 : cos (d t 2) ≠ -1 := fun e => hsn (by rw [e] at hsc; exact pow_eq_zero_iff two_ne_zero |>.1 (by linarith))
    obtain ⟨ε', he', h1', hI⟩ := exists_interior c1 c2
    have hi : Interior ε' (rel .se2 (q0 t) (q1 t)).rot := by rw [hrel t]; exact hI
    obtain ⟨kl, ka⟩ := d_log_pose he' h1' (fun s => rel_valid (u0 s) (u1 s)) hrel (fun s => (hd s).lt) hv hi
    have n0 : q0 t 2 * q0 t 2 + q0 t 3 * q0 t 3 = 1 := by
      have h : LG.sqn (q0 t) 2 2 = 1 := u0 t
      simpa [LG.sqn, Finset.sum_range_succ] using h
    have hp : rel .se2 (q0 t) (q1 t) = planar (q0 t 2 * q1 t 2 + q0 t 3 * q1 t 3) (q0 t 2 * q1 t 3 - q0 t 3 * q1 t 2)
        (q0 t 2 * (q1 t 0 - q0 t 0) + q0 t 3 * (q1 t 1 - q0 t 1))
        (-q0 t 3 * (q1 t 0 - q0 t 0) + q0 t 2 * (q1 t 1 - q0 t 1)) := by
      unfold rel poseOf
      refine SE3.ext ?_ ?_
      · show (planar _ _ _ _).rot.tr * (planar _ _ _ _).rot = _
        unfold planar
        m3ring
      · show -((planar _ _ _ _).rot.tr.mulVec (planar _ _ _ _).trans) + (planar _ _ _ _).rot.tr.mulVec (planar _ _ _ _).trans = _
        unfold planar
        m3ring
    have hrot : (rel .se2 (q0 t) (q1 t)).rot = _ := (congrArg SE3.rot (hrel t)).trans (Rot_z (d t 2))
    rw [hp] at hrot
    have hc : q0 t 2 * q1 t 2 + q0 t 3 * q1 t 3 = cos (d t 2) := congrArg M3.m00 hrot
    have hs : q0 t 2 * q1 t 3 - q0 t 3 * q1 t 2 = sin (d t 2) := congrArg M3.m10 hrot
    have hl : so2Log (q0 t 2 * q1 t 2 + q0 t 3 * q1 t 3) (-(q0 t 2 * q1 t 3 - q0 t 3 * q1 t 2))
        (q0 t 2 * q1 t 3 - q0 t 3 * q1 t 2) (q0 t 2 * q1 t 2 + q0 t 3 * q1 t 3) = d t 2 := by
      obtain ⟨e1, e2, e3, e4⟩ := so2Log_spec (c := q0 t 2 * q1 t 2 + q0 t 3 * q1 t 3)
        (s := q0 t 2 * q1 t 3 - q0 t 3 * q1 t 2) (by rw [hc, hs]; linear_combination hsc)
      exact angle_unique ⟨e3, e4⟩ ⟨hlt.1, hlt.2.le⟩ (e1.trans hc) (e2.trans hs)
    have e : twistOf .se2 (fun k => Spec.apply 3 (LG.se2.dDiff ε .arg0 (q0 t) (q1 t)) δ0 k +
        Spec.apply 3 (LG.se2.dDiff ε .arg1 (q0 t) (q1 t)) δ1 k) =
        (J6i (twistOf .se2 (d t)).ang (rel .se2 (q0 t) (q1 t)).trans).mulMM
          (twistOf .se2 δ1 - (rel .se2 (q0 t) (q1 t)).actInv (twistOf .se2 δ0)) := by
      have J : ∀ i, i < 3 → ∀ j, j < 3 → se2DDiff .arg1 (q0 t) (q1 t) i j = m6e (J6i ⟨0, 0, d t 2⟩ (rel .se2 (q0 t) (q1 t)).trans)
          (se2Idx i) (se2Idx j) := fun i hi j hj => by
        rw [hp]
        refine Eq.trans ?_ (se2Jlog_eq hc hs hl ht c1 hi hj)
        unfold se2DDiff
        dsimp only
        congr 1 <;> ring
      have hP : Planar (J6i ⟨0, 0, d t 2⟩ (rel .se2 (q0 t) (q1 t)).trans) := by rw [hp]; exact planar_J6i _ _ _
      show _ = (J6i ⟨0, 0, d t 2⟩ (rel .se2 (q0 t) (q1 t)).trans).mulMM _
      rw [mulMM_sub, twistOf_add]
      congr 1
      · have ea := planar_actInv (q0 t 2 * q1 t 2 + q0 t 3 * q1 t 3, q0 t 2 * q1 t 3 - q0 t 3 * q1 t 2,
          q0 t 2 * (q1 t 0 - q0 t 0) + q0 t 3 * (q1 t 1 - q0 t 1), -q0 t 3 * (q1 t 0 - q0 t 0) + q0 t 2 * (q1 t 1 - q0 t 1)) δ0
        rw [← hp] at ea
        rw [ea]
        have en : ∀ x : ℕ → ℝ, -(twistOf .se2 x) = twistOf .se2 (fun i => -x i) := fun x => by
          unfold twistOf; ext <;> simp
        rw [en, corner hP]
        have ex : ∀ i, i < 3 → Spec.apply 3 (LG.se2.dDiff ε .arg0 (q0 t) (q1 t)) δ0 i =
            Spec.apply 3 (fun i j => m6e (J6i ⟨0, 0, d t 2⟩ (rel .se2 (q0 t) (q1 t)).trans) (se2Idx i) (se2Idx j))
              (fun i => -Spec.apply 3 (se2InvAct (q0 t 2 * q1 t 2 + q0 t 3 * q1 t 3, q0 t 2 * q1 t 3 - q0 t 3 * q1 t 2,
          q0 t 2 * (q1 t 0 - q0 t 0) + q0 t 3 * (q1 t 1 - q0 t 1), -q0 t 3 * (q1 t 0 - q0 t 0) + q0 t 2 * (q1 t 1 - q0 t 1))) δ0 i) i := by
          intro i hi
          unfold Spec.apply
          simp only [Finset.sum_range_succ, Finset.sum_range_zero, zero_add]
          rw [← J i hi 0 (by omega), ← J i hi 1 (by omega), ← J i hi 2 (by omega)]
          have e0 : ∀ j, LG.se2.dDiff ε .arg0 (q0 t) (q1 t) i j = se2DDiff .arg0 (q0 t) (q1 t) i j := fun _ => rfl
          simp only [e0]
          rw [se2_arg0 n0 i (j := 0) (by omega), se2_arg0 n0 i (j := 1) (by omega), se2_arg0 n0 i (j := 2) (by omega)]
          ring
        show (⟨⟨_, _, 0⟩, ⟨0, 0, _⟩⟩ : Motion ℝ) = ⟨⟨_, _, 0⟩, ⟨0, 0, _⟩⟩
        rw [ex 0 (by omega), ex 1 (by omega), ex 2 (by omega)]
      · rw [corner hP]
        have ex : ∀ i, i < 3 → Spec.apply 3 (LG.se2.dDiff ε .arg1 (q0 t) (q1 t)) δ1 i =
            Spec.apply 3 (fun i j => m6e (J6i ⟨0, 0, d t 2⟩ (rel .se2 (q0 t) (q1 t)).trans) (se2Idx i) (se2Idx j)) δ1 i := by
          intro i hi
          unfold Spec.apply
          refine Finset.sum_congr rfl fun j hj => ?_
          dsimp only
          rw [← J i hi j (Finset.mem_range.1 hj)]; rfl
        show (⟨⟨_, _, 0⟩, ⟨0, 0, _⟩⟩ : Motion ℝ) = ⟨⟨_, _, 0⟩, ⟨0, 0, _⟩⟩
        rw [ex 0 (by omega), ex 1 (by omega), ex 2 (by omega)]
    rw [← e] at kl ka
    intro k hk
    have hk : k < 3 := hk
    interval_cases k
    exacts [kl.x, kl.y, ka.z]
  | se3 =>
    have hv := rel_vel u0 u1 h0 hq1
    have hrel : ∀ s, rel .se3 (q0 s) (q1 s) = Pose (twistOf .se3 (d s)) := fun s =>
      rel_of_step (fun _ => by simp) (u0 s) (hd s).step
    have hi : Interior ε (rel .se3 (q0 t) (q1 t)).rot := by rw [hrel t]; exact interior_of hok
    have hr := fun s => rel_valid (g := .se3) (u0 s) (u1 s)
    obtain ⟨kl, ka⟩ := d_log_pose he h1 hr hrel (fun s => (hd s).lt) hv hi
    have hm : (mlog3 ε (rel .se3 (q0 t) (q1 t)).rot).1 = (twistOf .se3 (d t)).ang := by
      have e : (rel .se3 (q0 t) (q1 t)).rot = Rot (twistOf .se3 (d t)).ang := by rw [hrel t]; rfl
      rw [e] at hi ⊢
      rw [(nomvec_of hi (hd t).lt).mlog3 he h1]
    have hJ := (hi.nominal (hr t)).Jlog6 he h1
    rw [hm] at hJ
    rw [← hJ] at kl ka
    have e : twistOf .se3 (fun k => Spec.apply 6 (LG.se3.dDiff ε .arg0 (q0 t) (q1 t)) δ0 k +
        Spec.apply 6 (LG.se3.dDiff ε .arg1 (q0 t) (q1 t)) δ1 k) =
        (Jlog6 ε (rel .se3 (q0 t) (q1 t))).mulMM (twistOf .se3 δ1 - (rel .se3 (q0 t) (q1 t)).actInv (twistOf .se3 δ0)) := by
      rw [twistOf_add, mulMM_sub]
      unfold LG.dDiff se3DDiff
      dsimp only
      rw [← rel_se3 _ _ (u0 t) (u1 t)]
      have hR : ((quatAt (q0 t) 3).conj * quatAt (q1 t) 3).toMat = (rel .se3 (q0 t) (q1 t)).rot := by
        rw [rel_se3 _ _ (u0 t) (u1 t)]
      rw [mulMM_ent, mulMM_ent, hR, se3_arg0 _ (hr t)]
      rw [qrot_eq, Quat.toMat_conj]
      unfold rel poseOf
      show _ = ((quatAt (q0 t) 3).toMat.tr * (quatAt (q1 t) 3).toMat).tr.mulVec
        (-((quatAt (q0 t) 3).toMat.tr.mulVec (vecAt (q0 t) 0)) + (quatAt (q0 t) 3).toMat.tr.mulVec (vecAt (q1 t) 0))
      have hR0 : (quatAt (q0 t) 3).toMat * (quatAt (q0 t) 3).toMat.tr = 1 := (pose_valid (g := .se3) (u0 t)).mul_tr
      have : ((quatAt (q0 t) 3).toMat.tr * (quatAt (q1 t) 3).toMat).tr.mulVec
        (-((quatAt (q0 t) 3).toMat.tr.mulVec (vecAt (q0 t) 0)) + (quatAt (q0 t) 3).toMat.tr.mulVec (vecAt (q1 t) 0)) =
        (quatAt (q1 t) 3).toMat.tr.mulVec (((quatAt (q0 t) 3).toMat * (quatAt (q0 t) 3).toMat.tr).mulVec (vecAt (q1 t) 0 - vecAt (q0 t) 0)) := by
        m3ring
      rw [this, hR0, M3.one_mulVec]
    rw [← e] at kl ka
    intro k hk
    have hk : k < 6 := hk
    interval_cases k
    exacts [kl.x, kl.y, kl.z, ka.x, ka.y, ka.z]

end Lie
end Pin
