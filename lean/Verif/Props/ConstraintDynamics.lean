import Verif.Algo.ConstraintDynamicsDrift
import Verif.Props.Contact

/-!
# C61: dynamics and impacts with rigid constraint models
-/

set_option linter.unusedSectionVars false
set_option linter.unusedVariables false

namespace Pin
open Finset
universe u
variable {K : Type u}

section
variable [Field K] [LinearOrder K] [IsStrictOrderedRing K] [HasEps K] {s : Sys K} {q v tau : ℕ → K} {lg : SE3 K → Motion K}
  {cs : List (RCM K × Corr K)} {st : ProxSet K} {x y : CDyn K} {T0 : ℕ → ℕ}

theorem Sys.massForm_nonneg (h : s.Packed) (hy : s.Heavy q) (w : ℕ → K) : 0 ≤ s.massForm q w w := by
  by_cases hw : ∃ r, r < s.nv ∧ w r ≠ 0
  · exact (Sys.massForm_pos h hy.body hy.cols hy.arm w hw).le
  · have : s.massForm q w w = s.massForm q w (fun _ => 0) := Sys.massForm_congr_right h.wf fun r hr => by
      by_contra hne; exact hw ⟨r, hr, hne⟩
    rw [this, Sys.massForm_zero_right h.par]

/-- what is known of the result of `constraintDynamics` -/
theorem rc_core (h : s.Packed) (hf : s.Full) (hc : crbaCheck s.par s.n = true) (hms : s.MassesOk) (d1 : Data K) (hq : s.At q)
    (hy : s.Heavy q) (hm : Made s (cs.map Prod.fst)) (h0 : s.BranchZero x.data.M)
    (hU : UnitTri (totalSize (cs.map Prod.fst) + s.nv) x.chol.U)
    (hmu : 0 < st.mu ∨ FullRank s.nv (totalSize (cs.map Prod.fst)) (stackJac s (computeJointJacobians s d1 q) (cs.map Prod.fst)))
    (hn : 1 ≤ st.maxIter)
    (hr : constraintDynamics lg s (CTab.alloc s (cs.map Prod.fst) T0) x q v tau cs st = some y) :
    let ms := cs.map Prod.fst
    let nc := totalSize ms
    let J := stackJac s (computeJointJacobians s d1 q) ms
    let D := rcPasses s x.data q v
    0 ≤ st.mu ∧ y.data = { D with ddq := y.data.ddq } ∧ y.lam = (fun r => -y.sol r) ∧
    y.rhs = fillSegs (fun m : RCM K × Corr K => m.1.type.dim) (fun m => (m.1.rhs lg m.2 (m.1.calc D) D).row) cs x.rhs ∧
    y.forces = contactForces y.sol ms ∧ (1 ≤ y.iter ∧ y.iter ≤ st.maxIter) ∧
    (y.absRes ≤ st.absAcc ∨ y.relRes ≤ st.relAcc ∨ y.iter = st.maxIter) ∧
    (∃ p, y.relRes = infNorm nc (fun r => -y.lam r + p r) ∧
      Turn s q nc J (fun r => tau r - D.nle r) y.rhs st.mu p y.lam y.data.ddq) ∧
    ∀ l a, 0 < st.mu → Turn s q nc J (fun r => tau r - D.nle r) y.rhs 0 l l a →
      ∑ i ∈ range nc, (y.lam i - l i) * (y.lam i - l i) ≤ ∑ i ∈ range nc, l i * l i ∧
      (¬ (y.absRes ≤ st.absAcc ∨ y.relRes ≤ st.relAcc) → 0 ≤ st.relAcc →
        ∑ i ∈ range nc, (y.lam i - l i) * (y.lam i - l i) + st.maxIter * (st.relAcc * st.relAcc)
          < ∑ i ∈ range nc, l i * l i) := by
  intro ms nc J D
  unfold constraintDynamics at hr
  by_cases h1 : 0 ≤ st.mu
  swap
  · rw [if_neg h1] at hr; exact absurd hr (by simp)
  rw [if_pos h1] at hr
  set t := CTab.alloc s ms T0 with ht
  dsimp only at hr
  rcases hcomp : t.compute s (rcPasses s x.data q v) ms (fun _ => st.mu) x.chol with _ | chol
  · rw [hcomp] at hr; exact absurd hr (by simp)
  rw [hcomp, Option.map_some] at hr
  set z : CDyn K := { x with
    data := rcPasses s x.data q v
    chol := chol
    sol := putSeg x.sol t.nc t.nv (fun r => tau r - (rcPasses s x.data q v).nle r)
    rhs := fillSegs (fun m : RCM K × Corr K => m.1.type.dim) (fun m => (m.1.rhs lg m.2 (m.1.calc D) D).row) cs x.rhs
    iter := 0
    prox := fun _ => 0 } with hz
  have hr2 := Option.some.inj hr
  set w := proxLoop t st tau st.maxIter z with hw
  have hyw : y = { w with data := { w.data with ddq := fun r => w.sol (t.nc + r) }, lam := fun r => -w.sol r, forces := contactForces w.sol ms } := hr2.symm
  obtain ⟨p1, p2, p3, -⟩ := passes_crba (s := s) true q v
    { x.data with oYcrb := upd x.data.oYcrb 0 0, of := upd x.data.of 0 0, oa := upd x.data.oa 0 0, ov := upd x.data.ov 0 0 } (upd_self x.data.oYcrb 0 0)
  have hso : SolveOk s q t chol J st.mu := by
    refine solveOk_of h hf hc hms d1 hq hy hm hU ?_ p1 p2 p3 hcomp ?_
    · exact h0
    · rcases hmu with hmu | hmu
      · exact Or.inl hmu
      · exact Or.inr ⟨h1, hmu⟩
  obtain ⟨e1, e2, e3, e4, e5, ⟨p, e6, e7⟩, e8⟩ := proxLoop_spec h (s := s) (q := q) (t := t) (J := J) (st := st) rfl tau
    (Sys.massForm_nonneg h hy) st.maxIter z hso hn
  rw [← hw] at e1 e2 e3 e4 e5 e6 e7 e8
  have hzi : z.iter = 0 := rfl
  have hzd : z.data = D := rfl
  have hzr : z.rhs = fillSegs (fun m : RCM K × Corr K => m.1.type.dim) (fun m => (m.1.rhs lg m.2 (m.1.calc D) D).row) cs x.rhs := rfl
  have hzp : z.prox = fun _ => 0 := rfl
  have y1 : y.data = { w.data with ddq := fun r => w.sol (t.nc + r) } := by rw [hyw]
  have y2 : y.lam = fun r => -w.sol r := by rw [hyw]
  have y3 : y.sol = w.sol := by rw [hyw]
  have y4 : y.rhs = z.rhs := by rw [hyw]; exact e3
  have y5 : y.relRes = w.relRes := by rw [hyw]
  have y6 : y.absRes = w.absRes := by rw [hyw]
  have y7 : y.iter = w.iter := by rw [hyw]
  have y8 : y.forces = contactForces w.sol ms := by rw [hyw]
  clear_value w z
  rw [hzd] at e7 e8
  rw [hzi] at e4 e5
  have y9 : y.data.ddq = fun r => w.sol (t.nc + r) := by rw [y1]
  refine ⟨h1, ?_, by rw [y2, y3], by rw [y4, hzr], by rw [y8, y3], by rw [y7]; omega, ?_, ⟨p, ?_, ?_⟩, fun l a hp he => ?_⟩
  · rw [y9, y1, e1, hzd]
  · rw [y6, y5, y7]
    simpa using e5
  · rw [y5, e6, y2]
    simp only [neg_neg]
    rfl
  · rw [y4, y2, y9]; exact e7
  · rw [y4] at he
    obtain ⟨g1, g2⟩ := e8 l a hp he
    rw [y2, y5, y6]
    rw [hzp] at g1 g2
    simp only [zero_sub, neg_mul_neg] at g1 g2
    exact ⟨g1, g2⟩

/-- **It throws exactly when `mu` is negative**, for the constraints given to `initConstraintDynamics`. -/
theorem C61_throws (lg : SE3 K → Motion K) (s : Sys K) (x : CDyn K) (q v tau : ℕ → K) (cs : List (RCM K × Corr K))
    (st : ProxSet K) : constraintDynamics lg s (CTab.alloc s (cs.map Prod.fst) T0) x q v tau cs st = none ↔ st.mu < 0 := by
  unfold constraintDynamics
  by_cases h1 : 0 ≤ st.mu
  · rw [if_pos h1]
    rcases hcomp : (CTab.alloc s (cs.map Prod.fst) T0).compute s (rcPasses s x.data q v) (cs.map Prod.fst) (fun _ => st.mu) x.chol with _ | chol
    · exact absurd rfl ((C60_throws s s _ _ T0 _ _ _).1 hcomp)
    · dsimp only
      rw [hcomp]
      simp [h1]
  · rw [if_neg h1]
    exact ⟨fun _ => lt_of_not_ge h1, fun _ => rfl⟩

section
variable (h : s.Packed) (hf : s.Full) (hc : crbaCheck s.par s.n = true) (hms : s.MassesOk) (d1 d2 : Data K) (hq : s.At q)
    (hy : s.Heavy q) (hm : Made s (cs.map Prod.fst)) (h0 : s.BranchZero x.data.M)
    (hU : UnitTri (totalSize (cs.map Prod.fst) + s.nv) x.chol.U)
    (hmu : 0 < st.mu ∨ FullRank s.nv (totalSize (cs.map Prod.fst)) (stackJac s (computeJointJacobians s d1 q) (cs.map Prod.fst)))
    (hn : 1 ≤ st.maxIter)
    (hr : constraintDynamics lg s (CTab.alloc s (cs.map Prod.fst) T0) x q v tau cs st = some y)
include h hf hc hms hq hy hm h0 hU hmu hn hr

/-- **The equations.** If `max_iter` is at least one, `M ddq + nle = tau + Jᵀ lambda_c`: inverse dynamics of the returned
acceleration is the torque of the motors and of the forces of the constraints; and the constraint `J ddq = rhs` is met up
to `mu` times the relative residual that the settings report. The previous content of `Data` does not matter. -/
theorem C61_equations :
    let J := stackJac s (computeJointJacobians s d1 q) (cs.map Prod.fst)
    let nc := totalSize (cs.map Prod.fst)
    (∀ r < s.nv, (rnea s d2 q v y.data.ddq).tau r = tau r + ∑ i ∈ range nc, J i r * y.lam i) ∧
    (∀ i < nc, |∑ k ∈ range s.nv, J i k * y.data.ddq k - y.rhs i| ≤ st.mu * y.relRes) ∧
    (1 ≤ y.iter ∧ y.iter ≤ st.maxIter) ∧ (y.absRes ≤ st.absAcc ∨ y.relRes ≤ st.relAcc ∨ y.iter = st.maxIter) := by
  obtain ⟨g1, g2, g3, g4, g5, g6, g7, ⟨p, g8, g9⟩, g10⟩ := rc_core h hf hc hms d1 hq hy hm h0 hU hmu hn hr
  intro J nc
  refine ⟨fun r hr => ?_, fun i hi => ?_, g6, g7⟩
  · have ha := C12_affine h.wf d2 d2 hq v y.data.ddq (Sys.unit r)
    rw [Sys.dotv_unit hr, Sys.dotv_unit hr, g9.dyn r hr, (rcPasses_ok h hq v x.data d2).2.2.2 r hr] at ha
    rw [ha]; ring
  · rw [g9.con i hi, abs_mul, abs_of_nonneg g1]
    apply mul_le_mul_of_nonneg_left _ g1
    have := le_infNorm (totalSize (cs.map Prod.fst)) (fun r => -y.lam r + p r) i hi
    rw [← g8] at this
    rw [show p i - y.lam i = -y.lam i + p i by ring]
    exact this

/-- **Without damping the solution is exact, and it is the only one.** With `mu = 0` and independent constraints,
`J ddq = rhs`, and no other acceleration and multipliers satisfy the two equations. -/
theorem C61_exact (hz : st.mu = 0) :
    let J := stackJac s (computeJointJacobians s d1 q) (cs.map Prod.fst)
    let nc := totalSize (cs.map Prod.fst)
    (∀ i < nc, ∑ k ∈ range s.nv, J i k * y.data.ddq k = y.rhs i) ∧
    ∀ a l : ℕ → K, (∀ r < s.nv, (rnea s d2 q v a).tau r = tau r + ∑ i ∈ range nc, J i r * l i) →
      (∀ i < nc, ∑ k ∈ range s.nv, J i k * a k = y.rhs i) →
      (∀ r < s.nv, a r = y.data.ddq r) ∧ ∀ i < nc, l i = y.lam i := by
  obtain ⟨g1, g2, g3, g4, g5, g6, g7, ⟨p, g8, g9⟩, g10⟩ := rc_core h hf hc hms d1 hq hy hm h0 hU hmu hn hr
  intro J nc
  have hcon : ∀ i < nc, ∑ k ∈ range s.nv, J i k * y.data.ddq k = y.rhs i := by
    intro i hi
    have := g9.con i hi
    rw [hz, zero_mul] at this
    exact sub_eq_zero.1 this
  refine ⟨hcon, fun a l ha hl => ?_⟩
  have hrk : FullRank s.nv nc J := by
    rcases hmu with hmu | hmu
    · exact absurd hmu (by rw [hz]; exact lt_irrefl 0)
    · exact hmu
  have hd : ∀ r < s.nv, s.massForm q (Sys.unit r) (fun r => a r + -1 * y.data.ddq r) = ∑ i ∈ range nc, J i r * (l i - y.lam i) := by
    intro r hr
    have h1 := C12_affine h.wf d2 d2 hq v a (Sys.unit r)
    rw [Sys.dotv_unit hr, Sys.dotv_unit hr, ha r hr] at h1
    have h2 := g9.dyn r hr
    rw [(rcPasses_ok h hq v x.data d2).2.2.2 r hr] at h2
    rw [Sys.massForm_add_right h.par, Sys.massForm_smul_right h.par, h2]
    simp only [mul_sub, sum_sub_distrib]
    linear_combination -h1
  have hzero : s.massForm q (fun r => a r + -1 * y.data.ddq r) (fun r => a r + -1 * y.data.ddq r) = 0 := by
    rw [Sys.massForm_coord h.wf]
    rw [sum_congr rfl fun r hr => by rw [Sys.massForm_symm, hd r (mem_range.1 hr), sum_mul], sum_comm]
    refine sum_eq_zero fun i hi => ?_
    have c1 := hl i (mem_range.1 hi)
    have c2 := hcon i (mem_range.1 hi)
    calc ∑ k ∈ range s.nv, J i k * (l i - y.lam i) * (a k + -1 * y.data.ddq k)
        = (l i - y.lam i) * (∑ k ∈ range s.nv, J i k * a k - ∑ k ∈ range s.nv, J i k * y.data.ddq k) := by
          rw [← sum_sub_distrib, mul_sum]; exact sum_congr rfl fun k _ => by ring
      _ = 0 := by rw [c1, c2, sub_self, mul_zero]
  have hda : ∀ r < s.nv, a r = y.data.ddq r := by
    intro r hr
    by_contra hne
    have := Sys.massForm_pos h hy.body hy.cols hy.arm (fun r => a r + -1 * y.data.ddq r)
      ⟨r, hr, fun e => hne (by linear_combination e)⟩
    rw [hzero] at this
    exact lt_irrefl _ this
  refine ⟨hda, fun i hi => ?_⟩
  have := hrk (fun i => l i - y.lam i) (fun r hr => by
    rw [← hd r hr]
    have e : s.massForm q (Sys.unit r) (fun r => a r + -1 * y.data.ddq r) = s.massForm q (Sys.unit r) (fun _ => 0) :=
      Sys.massForm_congr_right h.wf fun k hk => by rw [hda k hk]; ring
    rw [e, Sys.massForm_zero_right h.par]) i hi
  exact sub_eq_zero.1 this

/-- **The proximal iterations.** If the damping is positive and the constraints can be met exactly, by an acceleration
`a` with multipliers `l`, then the multipliers returned are at least as close to `l` as those the loop starts from,
which are zero; and if `max_iter * relative_accuracy²` is at least `|l|²` then the loop ends because a stopping criterion
is met, not because it runs out of turns. -/
theorem C61_converges (hp : 0 < st.mu) {a l : ℕ → K} :
    let J := stackJac s (computeJointJacobians s d1 q) (cs.map Prod.fst)
    let nc := totalSize (cs.map Prod.fst)
    (∀ r < s.nv, (rnea s d2 q v a).tau r = tau r + ∑ i ∈ range nc, J i r * l i) →
      (∀ i < nc, ∑ k ∈ range s.nv, J i k * a k = y.rhs i) →
      ∑ i ∈ range nc, (y.lam i - l i) * (y.lam i - l i) ≤ ∑ i ∈ range nc, l i * l i ∧
      (0 ≤ st.relAcc → ∑ i ∈ range nc, l i * l i ≤ st.maxIter * (st.relAcc * st.relAcc) →
        y.absRes ≤ st.absAcc ∨ y.relRes ≤ st.relAcc) := by
  obtain ⟨g1, g2, g3, g4, g5, g6, g7, ⟨p, g8, g9⟩, g10⟩ := rc_core h hf hc hms d1 hq hy hm h0 hU hmu hn hr
  intro J nc ha hl
  obtain ⟨k1, k2⟩ := g10 l a hp ⟨fun r hr => by
      have h1 := C12_affine h.wf d2 d2 hq v a (Sys.unit r)
      rw [Sys.dotv_unit hr, Sys.dotv_unit hr, ha r hr] at h1
      rw [(rcPasses_ok h hq v x.data d2).2.2.2 r hr]
      linear_combination -h1, fun i hi => by
        have := hl i hi
        rw [zero_mul]; exact sub_eq_zero.2 this⟩
  refine ⟨k1, fun h1 h2 => ?_⟩
  by_contra hne
  have h3 := k2 hne h1
  have h4 : 0 ≤ ∑ i ∈ range nc, (y.lam i - l i) * (y.lam i - l i) := sum_nonneg fun i _ => mul_self_nonneg _
  have h5 : (∑ i ∈ range nc, l i * l i) < ∑ i ∈ range nc, l i * l i := by
    refine lt_of_le_of_lt ?_ h3
    linarith
  exact lt_irrefl _ h5

/-- **`CONTACT_3D`.** In the rows of a `CONTACT_3D` between points `P1` of joint `j1` and `P2` of joint `j2`, the
difference of the accelerations of the two points, as `getFrameClassicalAcceleration` gives them for the returned
acceleration, is Baumgarte's feedback of the differences of positions and velocities plus the desired acceleration, up to
`mu` times the relative residual. `LOCAL`: all in the axes of the first frame. `LOCAL_WORLD_ALIGNED`: the feedback is
computed in these axes with the gains and rotated into those of the world. -/
theorem C61_contact_3d {pre post : List (RCM K × Corr K)} {m : RCM K} {k : Corr K} (hcs : cs = pre ++ (m, k) :: post)
    (ht : m.type = .CONTACT_3D) (hP1 : m.P1.Valid) (hP2 : m.P2.Valid) {r : ℕ} (hr3 : r < 3) :
    let F := forwardKinematicsA s d2 q v y.data.ddq
    let O1 := s.oM q m.j1 * m.P1
    let O2 := s.oM q m.j2 * m.P2
    let acc := (getFrameClassicalAcceleration F m.j1 m.P1 .LOCAL_WORLD_ALIGNED).lin
      - (getFrameClassicalAcceleration F m.j2 m.P2 .LOCAL_WORLD_ALIGNED).lin
    let vel := (getFrameVelocity F m.j1 m.P1 .LOCAL_WORLD_ALIGNED).lin
      - (getFrameVelocity F m.j2 m.P2 .LOCAL_WORLD_ALIGNED).lin
    let fb := baumgarte k ⟨O1.rot.tr.mulVec (O1.trans - O2.trans), 0⟩ ⟨O1.rot.tr.mulVec vel, 0⟩
    |(⟨inAxes m.rf O1.rot acc, 0⟩ : Motion K).row r - (toAxes m.rf O1.rot fb + k.des).row r| ≤ st.mu * y.relRes := by
  obtain ⟨g1, g2, g3, g4, -⟩ := rc_core h hf hc hms d1 hq hy hm h0 hU hmu hn hr
  have heq := (C61_equations h hf hc hms d1 d2 hq hy hm h0 hU hmu hn hr).2.1
  intro F O1 O2 acc vel fb
  have ok : m.Ok s := made_ok h hm m (by rw [hcs]; simp)
  set D := rcPasses s x.data q v with hD
  obtain ⟨c1, c2, c3, -⟩ := rcPasses_ok h hq v x.data Data.zero
  rw [← hD] at c1 c2 c3
  have hdim : m.type.dim = 3 := by rw [ht]; rfl
  set i := ((pre.map Prod.fst).map fun m => m.type.dim).sum + r with hi
  have hms' : cs.map Prod.fst = pre.map Prod.fst ++ m :: post.map Prod.fst := by rw [hcs]; simp
  have hin : i < totalSize (cs.map Prod.fst) := by
    rw [totalSize_sum, hms', hi, List.map_append, List.sum_append, List.map_cons, List.sum_cons, hdim]; omega
  have e1 := heq i hin
  have eJ : ∀ kk, stackJac s (computeJointJacobians s d1 q) (cs.map Prod.fst) i kk
      = m.jacobian s (computeJointJacobians s d1 q) (m.calc (computeJointJacobians s d1 q)) (fun _ _ => 0) r kk := by
    intro kk; rw [hms']; exact stackJac_at s _ _ _ _ (by rw [hdim]; exact hr3) kk
  have eR : y.rhs i = (m.rhs lg k (m.calc D) D).row r := by
    rw [g4, hcs]
    have := fillSegs_at (fun m : RCM K × Corr K => m.1.type.dim) (fun m => (m.1.rhs lg m.2 (m.1.calc D) D).row) pre (m, k)
      post x.rhs (r := r) (by dsimp only; rw [hdim]; exact hr3)
    rw [← this]
    congr 1
    rw [hi, List.map_map]; rfl
  obtain ⟨o0, o1, o2⟩ := calc_ok h d1 hq ok hP1 hP2
  have ecalc : m.calc D = m.calc (computeJointJacobians s d1 q) :=
    calc_congr (fun i h1 hi => by rw [c3 i h1 hi, ((jac_ok h d1 q).1 i h1 hi).2.1]) ok.j1 ok.j2
  have hv1 : O1.Valid := (s.oM_valid h.par hq _ ok.j1).mul hP1
  have hv2 : O2.Valid := (s.oM_valid h.par hq _ ok.j2).mul hP2
  have eS : ∑ kk ∈ range s.nv, stackJac s (computeJointJacobians s d1 q) (cs.map Prod.fst) i kk * y.data.ddq kk
      = (m.L1 (m.calc (computeJointJacobians s d1 q)) (s.oV q y.data.ddq m.j1)
        - m.L2 (m.calc (computeJointJacobians s d1 q)) (s.oV q y.data.ddq m.j2)).row r := by
    rw [sum_congr rfl fun kk _ => by rw [eJ kk]]
    exact jacobian_mul h hq ok o0 (jac_ok h d1 q).2 _ (by rw [hdim]; exact hr3)
  rw [eS, eR, ecalc, ← Motion.row_sub] at e1
  rw [← Motion.row_sub]
  convert e1 using 2
  apply Motion.row_lin _ hr3
  have hrhs := rhs_3d lg ht k (c := m.calc (computeJointJacobians s d1 q)) (by rw [o1]; exact hv1) (by rw [o2]; exact hv2)
    o0.c12 D (fun e => by rw [c1 0 (by have := h.par.1; omega), oV_zero']) (fun e => by rw [c1 0 (by have := h.par.1; omega), oV_zero'])
  rw [Motion.sub_lin, Motion.sub_lin, hrhs, o1, o2, c1 _ ok.j1, c1 _ ok.j2, c2 _ ok.j1, c2 _ ok.j2]
  have ev : vel = (translateLin O1 .LOCAL_WORLD_ALIGNED (s.oV q v m.j1)).lin
      - (translateLin O2 .LOCAL_WORLD_ALIGNED (s.oV q v m.j2)).lin := by
    change (getFrameVelocity F _ _ _).lin - (getFrameVelocity F _ _ _).lin = _
    rw [frameVelocityA_eq h.par d2 hq v _ ok.j1 hP1, frameVelocityA_eq h.par d2 hq v _ ok.j2 hP2]
  have ea : ∀ (j : ℕ) (P : SE3 K), j < s.n → P.Valid → (getFrameClassicalAcceleration F j P .LOCAL_WORLD_ALIGNED).lin
      = (translateLin (s.oM q j * P) .LOCAL_WORLD_ALIGNED (s.wA 0 q v (fun _ => 0) j)).lin
        + (translateLin (s.oM q j * P) .LOCAL_WORLD_ALIGNED (s.oV q y.data.ddq j)).lin
        + (s.oV q v j).ang.cross (translateLin (s.oM q j * P) .LOCAL_WORLD_ALIGNED (s.oV q v j)).lin := by
    intro j P hj hP
    unfold getFrameClassicalAcceleration
    dsimp only
    rw [frameVelocityA_eq h.par d2 hq v _ hj hP, frameAcceleration_eq h.par d2 hq v _ hj hP, Sys.wA_split h.par hq 0 v y.data.ddq j hj,
      map_add]
    rfl
  have eacc : acc = _ := congrArg₂ (· - ·) (ea m.j1 m.P1 ok.j1 hP1) (ea m.j2 m.P2 ok.j2 hP2)

  change inAxes m.rf O1.rot acc - _ = _
  rw [eacc]
  have efb : fb = baumgarte k ⟨O1.rot.tr.mulVec (O1.trans - O2.trans), 0⟩ ⟨O1.rot.tr.mulVec vel, 0⟩ := rfl
  rw [efb, ev, Motion.add_lin]
  unfold RCM.L1 RCM.L2
  rw [ht]
  generalize (toAxes m.rf O1.rot (baumgarte k ⟨O1.rot.tr.mulVec (O1.trans - O2.trans), 0⟩ ⟨O1.rot.tr.mulVec
    ((translateLin O1 .LOCAL_WORLD_ALIGNED (s.oV q v m.j1)).lin - (translateLin O2 .LOCAL_WORLD_ALIGNED (s.oV q v m.j2)).lin), 0⟩)).lin = B
  rcases hrf : m.rf
  · dsimp only [inAxes]
    rw [o1, o2]
    rw [show O1 = s.oM q m.j1 * m.P1 from rfl]
    simp only [linRot, LinearMap.comp_apply, LinearMap.coe_mk, AddHom.coe_mk, M3.mulVec_sub, M3.mulVec_add, Motion.sub_lin]
    abel
  · dsimp only [inAxes]
    rw [o1, o2]
    simp only [linPart, LinearMap.comp_apply, LinearMap.coe_mk, AddHom.coe_mk, Motion.sub_lin]
    abel

/-- **`CONTACT_6D`.** In the rows of a `CONTACT_6D`, with `P` the placement, in joint `j2`, of the frame that coincides
with the first frame: the difference of the spatial accelerations of the two joints at that frame, with the velocity product
in `LOCAL`, is Baumgarte's feedback plus the desired acceleration, up to `mu` times the relative residual. `lg` is `log6`;
the errors are minus the logarithm of the placement of the second frame in the first and the relative velocity in the
first frame. -/
theorem C61_contact_6d {pre post : List (RCM K × Corr K)} {m : RCM K} {k : Corr K} (hcs : cs = pre ++ (m, k) :: post)
    (ht : m.type = .CONTACT_6D) (hP1 : m.P1.Valid) (hP2 : m.P2.Valid) {P : SE3 K}
    (hP : s.oM q m.j2 * P = s.oM q m.j1 * m.P1) {r : ℕ} (hr6 : r < 6) :
    let F := forwardKinematicsA s d2 q v y.data.ddq
    let O1 := s.oM q m.j1 * m.P1
    let acc := getFrameAcceleration F m.j1 m.P1 m.rf.rf - getFrameAcceleration F m.j2 P m.rf.rf
    let vel := getFrameVelocity F m.j1 m.P1 .LOCAL - getFrameVelocity F m.j2 P .LOCAL
    let acc' := match m.rf with
      | .LOCAL => acc + vel.cross (getFrameVelocity F m.j2 P .LOCAL)
      | .LOCAL_WORLD_ALIGNED => acc
    let fb := baumgarte k (-lg (O1.actInvSE3 (s.oM q m.j2 * m.P2))) vel
    |acc'.row r - (toAxes m.rf O1.rot fb + k.des).row r| ≤ st.mu * y.relRes := by
  obtain ⟨g1, g2, g3, g4, -⟩ := rc_core h hf hc hms d1 hq hy hm h0 hU hmu hn hr
  have heq := (C61_equations h hf hc hms d1 d2 hq hy hm h0 hU hmu hn hr).2.1
  intro F O1 acc vel acc' fb
  have ok : m.Ok s := made_ok h hm m (by rw [hcs]; simp)
  set D := rcPasses s x.data q v with hD
  obtain ⟨c1, c2, c3, -⟩ := rcPasses_ok h hq v x.data Data.zero
  rw [← hD] at c1 c2 c3
  have hdim : m.type.dim = 6 := by rw [ht]; rfl
  set i := ((pre.map Prod.fst).map fun m => m.type.dim).sum + r with hi
  have hms' : cs.map Prod.fst = pre.map Prod.fst ++ m :: post.map Prod.fst := by rw [hcs]; simp
  have hin : i < totalSize (cs.map Prod.fst) := by
    rw [totalSize_sum, hms', hi, List.map_append, List.sum_append, List.map_cons, List.sum_cons, hdim]; omega
  have e1 := heq i hin
  have eJ : ∀ kk, stackJac s (computeJointJacobians s d1 q) (cs.map Prod.fst) i kk
      = m.jacobian s (computeJointJacobians s d1 q) (m.calc (computeJointJacobians s d1 q)) (fun _ _ => 0) r kk := by
    intro kk; rw [hms']; exact stackJac_at s _ _ _ _ (by rw [hdim]; exact hr6) kk
  have eR : y.rhs i = (m.rhs lg k (m.calc D) D).row r := by
    rw [g4, hcs]
    have := fillSegs_at (fun m : RCM K × Corr K => m.1.type.dim) (fun m => (m.1.rhs lg m.2 (m.1.calc D) D).row) pre (m, k)
      post x.rhs (r := r) (by dsimp only; rw [hdim]; exact hr6)
    rw [← this]
    congr 1
    rw [hi, List.map_map]; rfl
  obtain ⟨o0, o1, o2⟩ := calc_ok h d1 hq ok hP1 hP2
  have ecalc : m.calc D = m.calc (computeJointJacobians s d1 q) :=
    calc_congr (fun i h1 hi => by rw [c3 i h1 hi, ((jac_ok h d1 q).1 i h1 hi).2.1]) ok.j1 ok.j2
  have hw2 := s.oM_valid h.par hq _ ok.j2
  have hv1 : O1.Valid := (s.oM_valid h.par hq _ ok.j1).mul hP1
  have hv2 : (s.oM q m.j2 * m.P2).Valid := hw2.mul hP2
  have hPv : P.Valid := by
    have : P = (s.oM q m.j2).inv * O1 := by
      change _ = _ * (s.oM q m.j1 * m.P1)
      rw [← hP, ← SE3.mul_assoc, SE3.inv_mul hw2, SE3.one_mul]
    rw [this]
    exact hw2.inv.mul hv1
  have eS : ∑ kk ∈ range s.nv, stackJac s (computeJointJacobians s d1 q) (cs.map Prod.fst) i kk * y.data.ddq kk
      = (m.L1 (m.calc (computeJointJacobians s d1 q)) (s.oV q y.data.ddq m.j1)
        - m.L2 (m.calc (computeJointJacobians s d1 q)) (s.oV q y.data.ddq m.j2)).row r := by
    rw [sum_congr rfl fun kk _ => by rw [eJ kk]]
    exact jacobian_mul h hq ok o0 (jac_ok h d1 q).2 _ (by rw [hdim]; exact hr6)
  rw [eS, eR, ecalc, ← Motion.row_sub] at e1
  rw [← Motion.row_sub]
  convert e1 using 3
  have hrhs := rhs_6d lg ht k (c := m.calc (computeJointJacobians s d1 q)) (by rw [o1]; exact hv1) (by rw [o2]; exact hv2)
    o0.c12 D (fun e => by rw [c1 0 (by have := h.par.1; omega), oV_zero']) (fun e => by rw [c1 0 (by have := h.par.1; omega), oV_zero'])
  rw [hrhs, o0.c12, o1, o2, c1 _ ok.j1, c1 _ ok.j2, c2 _ ok.j1, c2 _ ok.j2]
  have ev2 : getFrameVelocity F m.j2 P .LOCAL = O1.actInv (s.oV q v m.j2) := by
    rw [frameVelocityA_eq h.par d2 hq v _ ok.j2 hPv, hP]; rfl
  have ev : vel = O1.actInv (s.oV q v m.j1 - s.oV q v m.j2) := by
    change getFrameVelocity F _ _ _ - getFrameVelocity F _ _ _ = _
    rw [ev2, frameVelocityA_eq h.par d2 hq v _ ok.j1 hP1, SE3.actInv_sub]; rfl
  have eacc : acc = translateLin O1 m.rf.rf (s.wA 0 q v (fun _ => 0) m.j1 - s.wA 0 q v (fun _ => 0) m.j2)
      + (translateLin O1 m.rf.rf (s.oV q y.data.ddq m.j1) - translateLin O1 m.rf.rf (s.oV q y.data.ddq m.j2)) := by
    change getFrameAcceleration F _ _ _ - getFrameAcceleration F _ _ _ = _
    rw [frameAcceleration_eq h.par d2 hq v _ ok.j1 hP1, frameAcceleration_eq h.par d2 hq v _ ok.j2 hPv, hP,
      Sys.wA_split h.par hq 0 v y.data.ddq _ ok.j1, Sys.wA_split h.par hq 0 v y.data.ddq _ ok.j2, map_add, map_add, map_sub]
    abel
  have efb : fb = baumgarte k (-lg (O1.actInvSE3 (s.oM q m.j2 * m.P2))) vel := rfl
  have eacc' : acc' = match m.rf with
      | .LOCAL => acc + vel.cross (getFrameVelocity F m.j2 P .LOCAL)
      | .LOCAL_WORLD_ALIGNED => acc := rfl
  rw [efb, eacc', eacc, ev, ev2]
  change _ = _ - (-(_ + _) + toAxes m.rf O1.rot (baumgarte k (-lg (O1.actInvSE3 (s.oM q m.j2 * m.P2)))
    (O1.actInv (s.oV q v m.j1 - s.oV q v m.j2))) + k.des)
  generalize toAxes m.rf O1.rot (baumgarte k (-lg (O1.actInvSE3 (s.oM q m.j2 * m.P2)))
    (O1.actInv (s.oV q v m.j1 - s.oV q v m.j2))) = B
  unfold RCM.L1 RCM.L2
  rw [ht]
  rcases hrf : m.rf
  · dsimp only [CFrame.rf]
    rw [o1]
    abel
  · dsimp only [CFrame.rf]
    rw [o1]
    abel

/-- **The forces** stored in the data of the constraints are the multipliers of their rows. -/
theorem C61_forces {pre post : List (RCM K × Corr K)} {m : RCM K} {k : Corr K} (hcs : cs = pre ++ (m, k) :: post) :
    let i := (pre.map fun m => m.1.type.dim).sum
    y.forces[pre.length]? = some (match m.type with
      | .CONTACT_3D => ⟨⟨y.lam i, y.lam (i + 1), y.lam (i + 2)⟩, 0⟩
      | .CONTACT_6D => ⟨⟨y.lam i, y.lam (i + 1), y.lam (i + 2)⟩, ⟨y.lam (i + 3), y.lam (i + 4), y.lam (i + 5)⟩⟩) := by
  obtain ⟨g1, g2, g3, g4, g5, -⟩ := rc_core h hf hc hms d1 hq hy hm h0 hU hmu hn hr
  intro i
  have hms' : cs.map Prod.fst = pre.map Prod.fst ++ m :: post.map Prod.fst := by rw [hcs]; simp
  have := contactForces_at y.sol (pre.map Prod.fst) m (post.map Prod.fst)
  rw [← hms', ← g5, List.length_map] at this
  rw [this, g3]
  have ei : ((pre.map Prod.fst).map fun m => m.type.dim).sum = i := by rw [List.map_map]; rfl
  rw [ei]
  unfold RCM.forceAt forceAt
  cases m.type <;> rfl

/-- **The mass matrix, the centroidal map and the centre of mass** are those that `crba` in the world convention computes
for a `Data` with the same previous mass matrix. -/
theorem C61_crba : ∃ d0 : Data K, d0.M = x.data.M ∧ y.data.M = (crbaWorld s d0 q).M ∧ y.data.Ag = (crbaWorld s d0 q).Ag ∧
    y.data.com 0 = (crbaWorld s d0 q).com 0 := by
  obtain ⟨g1, g2, -⟩ := rc_core h hf hc hms d1 hq hy hm h0 hU hmu hn hr
  obtain ⟨p1, p2, p3, p4, p5⟩ := passes_crba (s := s) true q v
    { x.data with oYcrb := upd x.data.oYcrb 0 0, of := upd x.data.of 0 0, oa := upd x.data.oa 0 0, ov := upd x.data.ov 0 0 } (upd_self x.data.oYcrb 0 0)
  refine ⟨_, ?_, (congrArg Data.M g2).trans p1, (congrArg Data.Ag g2).trans p4, (congrArg (fun d => Data.com d 0) g2).trans p5⟩
  rfl

end

/-! ## Impacts -/

section
variable {ms : List (RCM K)} {e mu : K}

/-- **It throws exactly when `mu` is negative or the restitution coefficient is outside of `[0, 1]`**, for the constraints
given to `initConstraintDynamics`. -/
theorem C61_impulse_throws (s : Sys K) (x : CDyn K) (q v : ℕ → K) (ms : List (RCM K)) (e mu : K) :
    impulseDynamicsC s (CTab.alloc s ms T0) x q v ms e mu = none ↔ mu < 0 ∨ e < 0 ∨ 1 < e := by
  unfold impulseDynamicsC
  by_cases h1 : 0 ≤ mu ∧ (0 ≤ e ∧ e ≤ 1)
  · rw [if_pos h1]
    rcases hcomp : (CTab.alloc s ms T0).compute s (impPasses s x.data q v) ms (fun _ => mu) x.chol with _ | chol
    · exact absurd rfl ((C60_throws s s _ _ T0 _ _ _).1 hcomp)
    · dsimp only
      rw [hcomp]
      simp [h1.1, h1.2.1, h1.2.2]
  · rw [if_neg h1]
    refine ⟨fun _ => ?_, fun _ => rfl⟩
    by_contra hne
    simp only [not_or, not_lt] at hne
    exact h1 hne

/-- velocities and placements after the passes -/
theorem impPasses_ok (h : s.Packed) (hq : s.At q) (d : Data K) : (∀ i, 1 ≤ i → i < s.n → (impPasses s d q v).ov i = s.oV q v i) ∧
    ∀ i, 1 ≤ i → i < s.n → (impPasses s d q v).oMi i = s.oM q i := by
  have hF := rcFwd_false_ok h hq v { d with oYcrb := upd d.oYcrb 0 0 }
  set F := fwd (rcFwd s false q v) s.n { d with oYcrb := upd d.oYcrb 0 0 } with hFd
  have hB : (bwd (rcBwd s false) s.n F).ov = F.ov ∧ (bwd (rcBwd s false) s.n F).oMi = F.oMi := by
    refine (bwd_proj (step' := fun _ (e : Unit) => e) (fun _ => ()) (fun D : Data K => D.ov = F.ov ∧ D.oMi = F.oMi)
      ⟨rfl, rfl⟩ ?_).1
    intro i D _ _ hD; exact ⟨hD, rfl⟩
  have e1 : (impPasses s d q v).ov = (bwd (rcBwd s false) s.n F).ov := rfl
  have e2 : (impPasses s d q v).oMi = (bwd (rcBwd s false) s.n F).oMi := rfl
  exact ⟨fun i h1 hi => by rw [e1, hB.1, hF.ov i h1 hi], fun i h1 hi => by rw [e2, hB.2, (hF.pl i h1 hi).2.1]⟩

variable (h : s.Packed) (hf : s.Full) (hc : crbaCheck s.par s.n = true) (hms : s.MassesOk) (d1 d2 : Data K) (hq : s.At q)
    (hy : s.Heavy q) (hm : Made s ms) (h0 : s.BranchZero x.data.M) (hU : UnitTri (totalSize ms + s.nv) x.chol.U)
    (hmu : 0 < mu ∨ FullRank s.nv (totalSize ms) (stackJac s (computeJointJacobians s d1 q) ms))
    (hr : impulseDynamicsC s (CTab.alloc s ms T0) x q v ms e mu = some y)
include h hf hc hms hq hy hm h0 hU hmu hr

/-- what is known of the result of `impulseDynamics` -/
theorem rcImp_core :
    let J := stackJac s (computeJointJacobians s d1 q) ms
    let nc := totalSize ms
    let D := impPasses s x.data q v
    (0 ≤ mu ∧ 0 ≤ e ∧ e ≤ 1) ∧ y.dqAfter = (fun r => y.data.ddq r + v r) ∧ y.impulse = (fun r => -y.sol r) ∧
    y.forces = contactForces y.sol ms ∧
    (∀ r < s.nv, s.massForm q (Sys.unit r) y.data.ddq = ∑ i ∈ range nc, J i r * y.impulse i) ∧
    (∀ i < nc, ∑ k ∈ range s.nv, J i k * y.data.ddq k + mu * y.impulse i
      = fillSegs (fun m : RCM K => m.type.dim) (fun m => (-(1 + e) • m.preImpact D).row) ms (fun _ => 0) i) := by
  intro J nc D
  unfold impulseDynamicsC at hr
  by_cases h1 : 0 ≤ mu ∧ (0 ≤ e ∧ e ≤ 1)
  swap
  · rw [if_neg h1] at hr; exact absurd hr (by simp)
  rw [if_pos h1] at hr
  set t := CTab.alloc s ms T0 with ht
  dsimp only at hr
  rcases hcomp : t.compute s (impPasses s x.data q v) ms (fun _ => mu) x.chol with _ | chol
  · rw [hcomp] at hr; exact absurd hr (by simp)
  rw [hcomp, Option.map_some] at hr
  have hr2 := Option.some.inj hr
  obtain ⟨p1, p2, p3, -⟩ := passes_crba (s := s) false q v { x.data with oYcrb := upd x.data.oYcrb 0 0 } (upd_self x.data.oYcrb 0 0)
  have hso : SolveOk s q t chol J mu := by
    refine solveOk_of (D := impPasses s x.data q v) h hf hc hms d1 hq hy hm hU ?_ p1 p2 p3 hcomp ?_
    · exact h0
    · rcases hmu with hmu | hmu
      · exact Or.inl hmu
      · exact Or.inr ⟨h1.1, hmu⟩
  set b := fillSegs (fun m : RCM K => m.type.dim) (fun m => (-(1 + e) • m.preImpact (rcAg s D)).row) ms
    (putSeg x.sol t.nc t.nv (fun _ => 0)) with hb
  have y1 : y.sol = t.solve chol b := by rw [← hr2]
  have y2 : y.data.ddq = fun r => t.solve chol b (t.nc + r) := by rw [← hr2]
  refine ⟨h1, by rw [← hr2], by rw [← hr2], by rw [← hr2], fun r hr => ?_, fun i hi => ?_⟩
  · have e1 := hso.dyn b r hr
    have e2 : y.impulse = fun r => -t.solve chol b r := by rw [← hr2]
    have e3 : b (t.nc + r) = 0 := by
      rw [hb, fillSegs_out _ _ _ _ (by rw [← totalSize_sum]; exact Nat.le_add_right _ _)]
      exact putSeg_at x.sol (fun _ => (0 : K)) hr
    rw [e3] at e1
    rw [y2, e2]
    simp only [mul_neg, sum_neg_distrib]
    change _ = -∑ i ∈ range t.nc, J i r * t.solve chol b i
    linear_combination e1
  · have e1 := hso.con b i hi
    have e2 : y.impulse = fun r => -t.solve chol b r := by rw [← hr2]
    have e3 : b i = fillSegs (fun m : RCM K => m.type.dim) (fun m => (-(1 + e) • m.preImpact D).row) ms (fun _ => 0) i := by
      rw [hb, fillSegs_indep _ _ _ _ (fun _ => 0) (by rw [← totalSize_sum]; exact hi)]
      rfl
    rw [← e3, ← e1, y2, e2]
    ring

/-- **Impacts.** `M (v⁺ - v⁻) = Jᵀ Λ`: the change of momentum is the impulse of the constraints. -/
theorem C61_impulse :
    let J := stackJac s (computeJointJacobians s d1 q) ms
    ∀ r < s.nv, s.massForm q (Sys.unit r) (fun k => y.dqAfter k - v k) = ∑ i ∈ range (totalSize ms), J i r * y.impulse i := by
  obtain ⟨g1, g2, g3, g4, g5, -⟩ := rcImp_core h hf hc hms d1 hq hy hm h0 hU hmu hr
  intro J r hr
  rw [← g5 r hr, g2]
  congr 1; funext k; ring

/-- **Restitution against the environment.** In the rows of a constraint whose second joint is the universe, the velocity
of the first frame after the impact is minus the restitution coefficient times the one before, minus `mu` times the
impulse; `getFrameVelocity` in the reference frame of the constraint, its linear part for a `CONTACT_3D`. -/
theorem C61_restitution_partial {pre post : List (RCM K)} {m : RCM K} (hcs : ms = pre ++ m :: post) (h1 : 1 ≤ m.j1)
    (h2 : m.j2 = 0) (hP1 : m.P1.Valid) (hP2 : m.P2.Valid) {r : ℕ} (hrd : r < m.type.dim) :
    (getFrameVelocity (forwardKinematicsV s d2 q y.dqAfter) m.j1 m.P1 m.rf.rf).row r
      = -e * (getFrameVelocity (forwardKinematicsV s d2 q v) m.j1 m.P1 m.rf.rf).row r
        - mu * y.impulse ((pre.map fun m => m.type.dim).sum + r) := by
  obtain ⟨g1, g2, g3, g4, g5, g6⟩ := rcImp_core h hf hc hms d1 hq hy hm h0 hU hmu hr
  have ok : m.Ok s := made_ok h hm m (by rw [hcs]; simp)
  set D := impPasses s x.data q v with hD
  obtain ⟨c1, c2⟩ := impPasses_ok h hq x.data (v := v)
  rw [← hD] at c1 c2
  set i := (pre.map fun m => m.type.dim).sum + r with hi
  have hin : i < totalSize ms := by
    rw [totalSize_sum, hcs, hi, List.map_append, List.sum_append, List.map_cons, List.sum_cons]; omega
  have e1 := g6 i hin
  have eJ : ∀ kk, stackJac s (computeJointJacobians s d1 q) ms i kk
      = m.jacobian s (computeJointJacobians s d1 q) (m.calc (computeJointJacobians s d1 q)) (fun _ _ => 0) r kk := by
    intro kk; rw [hcs]; exact stackJac_at s _ _ _ _ hrd kk
  have eR : fillSegs (fun m : RCM K => m.type.dim) (fun m => (-(1 + e) • m.preImpact D).row) ms (fun _ => 0) i
      = (-(1 + e) • m.preImpact D).row r := by
    rw [hcs]
    exact fillSegs_at (fun m : RCM K => m.type.dim) (fun m => (-(1 + e) • m.preImpact D).row) pre m post _ hrd
  obtain ⟨o0, o1, o2⟩ := calc_ok h d1 hq ok hP1 hP2
  have eS : ∀ w : ℕ → K, ∑ kk ∈ range s.nv, stackJac s (computeJointJacobians s d1 q) ms i kk * w kk
      = (translateLin (s.oM q m.j1 * m.P1) m.rf.rf (s.oV q w m.j1)).row r := by
    intro w
    rw [sum_congr rfl fun kk _ => by rw [eJ kk], jacobian_mul h hq ok o0 (jac_ok h d1 q).2 _ hrd, h2, oV_zero', map_zero, sub_zero]
    unfold RCM.L1
    rw [o1]
    rcases ht : m.type <;> rcases m.rf <;> rw [ht] at hrd
    · apply Motion.row_lin _ hrd
      have hv : (s.oM q m.j1 * m.P1).Valid := (s.oM_valid h.par hq _ ok.j1).mul hP1
      rfl
    · apply Motion.row_lin _ hrd; rfl
    · rfl
    · rfl
  have ep : m.preImpact D = translateLin (s.oM q m.j1 * m.P1) m.rf.rf (s.oV q v m.j1) := by
    unfold RCM.preImpact
    rw [c1 _ h1 ok.j1, c2 _ h1 ok.j1]
    rcases m.rf <;> rfl
  have ea : ∀ w : ℕ → K, (getFrameVelocity (forwardKinematicsV s d2 q w) m.j1 m.P1 m.rf.rf).row r
      = ∑ kk ∈ range s.nv, stackJac s (computeJointJacobians s d1 q) ms i kk * w kk := by
    intro w
    rw [frameVelocity_eq h.par d2 hq w ok.j1 hP1, eS]
  rw [eR, ep, Motion.row_smul, ← eS] at e1
  rw [ea, ea, g2]
  simp only [mul_add, sum_add_distrib]
  linear_combination e1

end
end

/-! ## Where the code departs from the property -/

/-- nothing in `Data`, factors as allocated -/
def Ex.cd0 : CDyn ℚ := ⟨Data.zero, allocFactors Chol.init, fun _ => 0, fun _ => 0, fun _ => 0, fun _ => 0, fun _ => 0, fun _ => 0,
  0, 0, 0, []⟩

/-- point masses that move freely, without gravity -/
def Ex.points (n : ℕ) (mass : ℚ) : Sys ℚ where
  n := n
  par _ := 0
  pl _ := 1
  Y _ := ⟨mass, 0, ⟨1, 0, 1, 0, 0, 1⟩⟩
  jt _ := jTranslation
  iq i := 3 * (i - 1)
  iv i := 3 * (i - 1)
  nv := 3 * (n - 1)
  arm _ := 0
  grav := 0

/-- a point held by a `CONTACT_3D`, with desired acceleration 1 along `x` -/
def Ex.held : List (RCM ℚ × Corr ℚ) :=
  [(RCM.make.go (Ex.points 2 1) .CONTACT_3D 1 1 0 1 .LOCAL, ⟨fun _ => 0, fun _ => 0, ⟨⟨1, 0, 0⟩, 0⟩⟩)]

set_option maxRecDepth 100000 in
/-- **The stopping test on the absolute residual is not a test of the constraint.** `constraintDynamics` compares with
`absolute_accuracy` the residual of `- J M⁻¹ Jᵀ λ = rhs`, where the motion due to the torques is missing and the sign is
wrong. A unit mass held at a point with desired acceleration 1 and pulled by a force 3, with `mu = 1`: the loop stops
after one turn of the hundred allowed, reporting an absolute residual of zero, with an acceleration 2. -/
theorem C61_residual_counterexample :
    ∃ y, constraintDynamics (fun _ => 0) (Ex.points 2 1) (CTab.alloc (Ex.points 2 1) (Ex.held.map Prod.fst) (fun _ => 0)) Ex.cd0
        (fun _ => 0) (fun _ => 0) (fun r => if r = 0 then 3 else 0) Ex.held ⟨0, 0, 1, 100⟩ = some y ∧
      y.absRes = 0 ∧ y.iter = 1 ∧ y.data.ddq 0 = 2 ∧ y.rhs 0 = 1 ∧
      stackJac (Ex.points 2 1) (computeJointJacobians (Ex.points 2 1) Data.zero (fun _ => 0)) (Ex.held.map Prod.fst) 0 0 = 1 := by
  refine ⟨_, rfl, ?_⟩
  decide +kernel

set_option maxRecDepth 100000 in
/-- **With `max_iter = 0` the result is not an acceleration**: `constraintDynamics` returns the torques. A mass of 2 pulled by
a force 3, no constraint. -/
theorem C61_max_iter_counterexample :
    ∃ y, constraintDynamics (fun _ => 0) (Ex.points 2 2) (CTab.alloc (Ex.points 2 2) [] (fun _ => 0)) Ex.cd0
        (fun _ => 0) (fun _ => 0) (fun r => if r = 0 then 3 else 0) [] ⟨0, 0, 0, 0⟩ = some y ∧
      y.data.ddq 0 = 3 ∧ (rnea (Ex.points 2 2) Data.zero (fun _ => 0) (fun _ => 0) y.data.ddq).tau 0 = 6 := by
  refine ⟨_, rfl, ?_⟩
  decide +kernel

/-- two points joined by a `CONTACT_3D` -/
def Ex.joined : List (RCM ℚ) := [RCM.make.go (Ex.points 3 1) .CONTACT_3D 1 1 2 1 .LOCAL]

set_option maxRecDepth 100000 in
/-- **Impacts between two moving bodies are wrong.** `impulseDynamics` uses the velocity of the first frame only. Two points
that move together, with the velocity 1 along `x`, and a restitution coefficient of zero: their relative velocity is zero
before the impact and `-1` after it. -/
theorem C61_restitution_counterexample :
    ∃ y, impulseDynamicsC (Ex.points 3 1) (CTab.alloc (Ex.points 3 1) Ex.joined (fun _ => 0)) Ex.cd0
        (fun _ => 0) (fun r => if r = 0 ∨ r = 3 then 1 else 0) Ex.joined 0 0 = some y ∧
      y.dqAfter 0 - y.dqAfter 3 = -1 ∧
      stackJac (Ex.points 3 1) (computeJointJacobians (Ex.points 3 1) Data.zero (fun _ => 0)) Ex.joined 0 0 = 1 ∧
      stackJac (Ex.points 3 1) (computeJointJacobians (Ex.points 3 1) Data.zero (fun _ => 0)) Ex.joined 0 3 = -1 := by
  refine ⟨_, rfl, ?_⟩
  decide +kernel

/-! ## the hypotheses are met -/

/-- the constraints of `Ex.ccMs` with gains and desired accelerations -/
def Ex.ccCs : List (RCM ℚ × Corr ℚ) := Ex.ccMs.map fun m => (m, ⟨fun _ => 2, fun _ => 1, ⟨⟨1, 2, 3⟩, 0⟩⟩)

example : Made Ex.sysA (Ex.ccCs.map Prod.fst) ∧ Ex.sysA.Heavy Ex.qA ∧
    UnitTri (totalSize (Ex.ccCs.map Prod.fst) + Ex.sysA.nv) Ex.cd0.chol.U ∧ Ex.sysA.BranchZero Ex.cd0.data.M ∧
    (∃ y, constraintDynamics (fun M => ⟨M.trans, 0⟩) Ex.sysA (CTab.alloc Ex.sysA (Ex.ccCs.map Prod.fst) (fun _ => 0)) Ex.cd0 Ex.qA
      (fun _ => 1) (fun _ => 2) Ex.ccCs ⟨1/1000, 1/1000, 1, 1⟩ = some y) ∧
    (∃ y, impulseDynamicsC Ex.sysA (CTab.alloc Ex.sysA Ex.ccMs (fun _ => 0)) Ex.cd0 Ex.qA (fun _ => 1) Ex.ccMs (1/2) 1 = some y) ∧
    (∃ m ∈ Ex.ccMs, 1 ≤ m.j1 ∧ m.j2 = 0 ∧ m.P1.Valid ∧ m.P2.Valid) := by
  have e : Ex.ccCs.map Prod.fst = Ex.ccMs := rfl
  refine ⟨by rw [e]; exact Ex.ccMs_made, ⟨fun i _ _ => ?_, Ex.sysA_cols, fun r _ => ?_⟩, allocFactors_tri _ _,
    fun _ _ _ _ _ _ _ _ _ _ _ _ => rfl, ?_, ?_, ?_⟩
  · simp only [Ex.sysA]
    split
    · exact Ex.iB_pd
    · exact Ex.iA_pd
  · simp only [Ex.sysA]; split <;> norm_num
  · exact Option.ne_none_iff_exists'.1 fun hn => absurd ((C61_throws _ _ _ _ _ _ _ _).1 hn) (by norm_num)
  · exact Option.ne_none_iff_exists'.1 fun hn => absurd ((C61_impulse_throws _ _ _ _ _ _ _).1 hn) (by norm_num)
  · exact ⟨_, List.mem_cons_of_mem _ (List.mem_cons_self ..), by decide, rfl, Ex.mB_valid, SE3.valid_one⟩

set_option maxRecDepth 100000 in
/-- independent constraints, for `mu = 0` -/
example : FullRank (Ex.points 2 1).nv (totalSize (Ex.held.map Prod.fst))
    (stackJac (Ex.points 2 1) (computeJointJacobians (Ex.points 2 1) Data.zero (fun _ => 0)) (Ex.held.map Prod.fst)) := by
  intro w hw i hi
  have e : ∀ i < 3, ∀ r < 3, stackJac (Ex.points 2 1) (computeJointJacobians (Ex.points 2 1) Data.zero (fun _ => 0))
      (Ex.held.map Prod.fst) i r = if i = r then 1 else 0 := by decide +kernel
  change i < 3 at hi
  have := hw i hi
  rw [sum_congr rfl fun k hk => by rw [e k (mem_range.1 hk) i hi]] at this
  simp only [ite_mul, one_mul, zero_mul, sum_ite_eq', mem_range] at this
  exact (if_pos hi).symm.trans this

end Pin
