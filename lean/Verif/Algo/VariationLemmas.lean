import Verif.Spec.Variation
import Verif.Algo.JacobianLemmas

/-!
# First-order variation of velocities and accelerations

`(q, v, a)` moves in the direction `(w, δv, δa)`. `eV` and `hA` are closed forms, in the world frame, of the variation
of the body velocity and acceleration.
-/

namespace Pin
open Finset DualNumber TrivSqZeroExt
universe u

section
variable {K : Type u} [CommRing K]

theorem Motion.sub_cross (a b c : Motion K) : (a - b).cross c = a.cross c - b.cross c := by
  ext <;> simp [Motion.cross] <;> ring
theorem Motion.cross_sub (a b c : Motion K) : a.cross (b - c) = a.cross b - a.cross c := by
  ext <;> simp [Motion.cross] <;> ring
theorem Motion.neg_cross (a c : Motion K) : (-a).cross c = -a.cross c := by
  ext <;> simp [Motion.cross] <;> ring
theorem Motion.cross_anti (a c : Motion K) : a.cross c = -c.cross a := by
  ext <;> simp [Motion.cross] <;> ring
theorem Motion.snd_cross (a b : Motion K[ε]) :
    (a.cross b).map snd = (a.map snd).cross (b.map fst) + (a.map fst).cross (b.map snd) := by
  ext <;> simp [Motion.cross, Motion.map, V3.map] <;> ring
theorem Motion.fst_cross (a b : Motion K[ε]) : (a.cross b).map fst = (a.map fst).cross (b.map fst) := by
  ext <;> simp [Motion.cross, Motion.map, V3.map]
theorem Motion.snd_zero : ((0 : Motion K[ε]).map snd : Motion K) = 0 := by
  ext <;> simp [Motion.map, V3.map]
theorem Motion.fst_zero : ((0 : Motion K[ε]).map fst : Motion K) = 0 := by
  ext <;> simp [Motion.map, V3.map]
theorem Motion.snd_inl (a : Motion K) : (a.map (inl : K → K[ε])).map snd = 0 := by
  ext <;> simp [Motion.map, V3.map]
theorem Motion.fst_inl (a : Motion K) : (a.map (inl : K → K[ε])).map fst = a := by
  ext <;> simp [Motion.map, V3.map]

/-- left cross product as a linear map -/
def crossLin (a : Motion K) : Motion K →ₗ[K] Motion K where
  toFun x := a.cross x
  map_add' := Motion.cross_add a
  map_smul' c x := by ext <;> simp [Motion.cross] <;> ring

namespace Sys
variable (s : Sys K)

/-- joint motion in the world frame -/
def oj (q w : ℕ → K) (i : ℕ) : Motion K := (s.oM q i).act (s.jvel q w i)

/-- acceleration in the world frame -/
def wA (a0 : Motion K) (q v a : ℕ → K) (i : ℕ) : Motion K := (s.oM q i).act (s.A a0 q v a i)

/-- variation of the body velocity, brought to the world frame -/
def eV (q w v δv : ℕ → K) : ℕ → Motion K :=
  treeRec s.par 0 (fun i p => p + (s.oV q v (s.par i)).cross (s.oj q w i) + s.oj q δv i)

/-- variation of the body acceleration brought to the world frame, plus `v × eV` -/
def hA (a0 : Motion K) (q w v δv a δa : ℕ → K) : ℕ → Motion K :=
  treeRec s.par 0 (fun i p => p
    + ((s.wA a0 q v a (s.par i)).cross (s.oj q w i)
      + (s.oV q v (s.par i)).cross ((s.oV q v (s.par i)).cross (s.oj q w i)))
    + ((s.oV q v i).cross (s.oj q δv i) + (s.oV q v (s.par i)).cross (s.oj q δv i)) + s.oj q δa i)

variable {s}

theorem eV_zero (q w v δv : ℕ → K) : s.eV q w v δv 0 = 0 := treeRec_zero ..
theorem eV_step {q w v δv : ℕ → K} {i : ℕ} (h1 : 1 ≤ i) (hp : s.par i < i) :
    s.eV q w v δv i = s.eV q w v δv (s.par i) + (s.oV q v (s.par i)).cross (s.oj q w i) + s.oj q δv i :=
  treeRec_step _ _ h1 hp
theorem hA_zero (a0 : Motion K) (q w v δv a δa : ℕ → K) : s.hA a0 q w v δv a δa 0 = 0 := treeRec_zero ..
theorem hA_step {a0 : Motion K} {q w v δv a δa : ℕ → K} {i : ℕ} (h1 : 1 ≤ i) (hp : s.par i < i) :
    s.hA a0 q w v δv a δa i = s.hA a0 q w v δv a δa (s.par i)
    + ((s.wA a0 q v a (s.par i)).cross (s.oj q w i)
      + (s.oV q v (s.par i)).cross ((s.oV q v (s.par i)).cross (s.oj q w i)))
    + ((s.oV q v i).cross (s.oj q δv i) + (s.oV q v (s.par i)).cross (s.oj q δv i)) + s.oj q δa i :=
  treeRec_step _ _ h1 hp

theorem eV_eq (hp : ParOk s.par s.n) (q w v δv : ℕ → K) : ∀ b, b < s.n →
    s.eV q w v δv b = ∑ i ∈ supp s.par s.n b, ((s.oV q v (s.par i)).cross (s.oj q w i) + s.oj q δv i) :=
  sum_supp hp (eV_zero q w v δv) (fun b h1 hb => by rw [eV_step h1 (hp.2 b h1 hb)]; abel)

theorem hA_eq (hp : ParOk s.par s.n) (a0 : Motion K) (q w v δv a δa : ℕ → K) : ∀ b, b < s.n →
    s.hA a0 q w v δv a δa b = ∑ i ∈ supp s.par s.n b, (((s.wA a0 q v a (s.par i)).cross (s.oj q w i)
      + (s.oV q v (s.par i)).cross ((s.oV q v (s.par i)).cross (s.oj q w i)))
      + ((s.oV q v i).cross (s.oj q δv i) + (s.oV q v (s.par i)).cross (s.oj q δv i)) + s.oj q δa i) :=
  sum_supp hp (hA_zero a0 q w v δv a δa) (fun b h1 hb => by rw [hA_step h1 (hp.2 b h1 hb)]; abel)

theorem wA_step (hp : ParOk s.par s.n) {q : ℕ → K} (hq : s.At q) (a0 : Motion K) (v a : ℕ → K) {i : ℕ} (h1 : 1 ≤ i)
    (hi : i < s.n) : s.wA a0 q v a i = s.oj q a i + (s.oM q i).act (s.cb q v i)
      + (s.oV q v i).cross (s.oj q v i) + s.wA a0 q v a (s.par i) := by
  have hpi := hp.2 i h1 hi
  have hop := s.oM_valid hp hq (s.par i) (by omega)
  have hoi := s.oM_valid hp hq i hi
  unfold wA oj oV
  rw [A_step s h1 hpi, SE3.act_add, SE3.act_add, SE3.act_add, Motion.act_cross hoi]
  congr 1
  rw [s.oM_step h1 hpi, SE3.mul_act hop, SE3.act_actInv (s.X_valid hq h1 hi)]

theorem oV_step' (hp : ParOk s.par s.n) {q : ℕ → K} (hq : s.At q) (w : ℕ → K) {i : ℕ} (h1 : 1 ≤ i)
    (hi : i < s.n) : s.oV q w i = s.oj q w i + s.oV q w (s.par i) := oV_step hp hq w h1 hi

variable {sε : Sys K[ε]} {q w dq : ℕ → K}

theorem jvel_snd_const (h : s.Along sε q w dq) (hc : s.ConstS sε) (x δx : ℕ → K) {i : ℕ} (h1 : 1 ≤ i) (hi : i < s.n) :
    (sε.jvel (perturb q dq) (perturb x δx) i).map snd = s.jvel q δx i := by
  unfold jvel comb
  rw [map_snd_sum, h.jnv]
  apply sum_congr rfl
  intro k hk
  have hk := mem_range.1 hk
  rw [map_snd_smul, S_perturb h h1 hi hk, hc.S i h1 hi k hk, smul_zero, zero_add]
  unfold vs seg
  rw [snd_perturb, h.iv]

/-- variation of the body velocities -/
theorem V_var (h : s.Along sε q w dq) (hc : s.ConstS sε) (hp : ParOk s.par s.n) (hq : s.At q) (v δv : ℕ → K) :
    ∀ i, i < s.n → (s.oM q i).act ((sε.V (perturb q dq) (perturb v δv) i).map snd) = s.eV q w v δv i := by
  intro i hi; refine joint_ind s hp ?_ ?_ i hi <;> clear hi i
  · rw [V_zero, eV_zero, Motion.snd_zero]; simp
  · intro i h1 hi ih
    have hpi := hp.2 i h1 hi
    have hX := s.X_valid hq h1 hi
    have hop := s.oM_valid hp hq (s.par i) (by omega)
    have hoi := s.oM_valid hp hq i hi
    have eo : ∀ m, (s.oM q i).act ((s.X q i).actInv m) = (s.oM q (s.par i)).act m := by
      intro m
      rw [s.oM_step h1 hpi, SE3.mul_act hop, SE3.act_actInv hX]
    rw [eV_step h1 hpi, ← ih, sε.V_step h1 (by rw [h.par]; exact hpi), map_snd_add, jvel_snd_const h hc _ _ h1 hi,
      (X_moves h hq h1 hi).snd_actInv hX, h.par, V_fst h hp hq _ _ _ (by omega), SE3.act_add, SE3.act_sub,
      Motion.act_cross hoi, eo, eo]
    unfold oV oj
    rw [Motion.cross_anti ((s.oM q (s.par i)).act _)]
    abel

theorem A_fst (h : s.Along sε q w dq) (hc : s.ConstS sε) (hp : ParOk s.par s.n) (hq : s.At q) (a0 : Motion K)
    (v δv a δa : ℕ → K) : ∀ i, i < s.n →
    (sε.A (a0.map inl) (perturb q dq) (perturb v δv) (perturb a δa) i).map fst = s.A a0 q v a i := by
  intro i hi; refine joint_ind s hp ?_ ?_ i hi <;> clear hi i
  · rw [A_zero, A_zero, Motion.fst_inl]
  · intro i h1 hi ih
    have hpi := hp.2 i h1 hi
    rw [s.A_step h1 hpi, sε.A_step h1 (by rw [h.par]; exact hpi), map_fst_add, map_fst_add, map_fst_add,
      Motion.fst_cross, jvel_fst h _ _ h1 hi, jvel_fst h _ _ h1 hi, V_fst h hp hq _ _ _ hi, hc.c i h1 hi,
      hc.cε i h1 hi, SE3.map_fst_actInv (X_moves h hq h1 hi).base, h.par, ih, Motion.fst_zero]

/-- variation of the body accelerations -/
theorem A_var (h : s.Along sε q w dq) (hc : s.ConstS sε) (hp : ParOk s.par s.n) (hq : s.At q) (a0 : Motion K)
    (v δv a δa : ℕ → K) : ∀ i, i < s.n →
    (s.oM q i).act ((sε.A (a0.map inl) (perturb q dq) (perturb v δv) (perturb a δa) i).map snd)
      = s.hA a0 q w v δv a δa i - (s.oV q v i).cross (s.eV q w v δv i) := by
  intro i hi; refine joint_ind s hp ?_ ?_ i hi <;> clear hi i
  · rw [A_zero, hA_zero, eV_zero, Motion.snd_inl, Motion.cross_zero]; simp
  · intro i h1 hi ih
    have hpi := hp.2 i h1 hi
    have hX := s.X_valid hq h1 hi
    have hop := s.oM_valid hp hq (s.par i) (by omega)
    have hoi := s.oM_valid hp hq i hi
    have eo : ∀ m, (s.oM q i).act ((s.X q i).actInv m) = (s.oM q (s.par i)).act m := by
      intro m
      rw [s.oM_step h1 hpi, SE3.mul_act hop, SE3.act_actInv hX]
    rw [hA_step h1 hpi, sε.A_step h1 (by rw [h.par]; exact hpi), map_snd_add, map_snd_add, map_snd_add,
      Motion.snd_cross, jvel_snd_const h hc _ _ h1 hi, jvel_snd_const h hc _ _ h1 hi, jvel_fst h _ _ h1 hi,
      V_fst h hp hq _ _ _ hi, hc.cε i h1 hi, Motion.snd_zero, add_zero,
      (X_moves h hq h1 hi).snd_actInv hX, h.par, A_fst h hc hp hq _ _ _ _ _ _ (by omega), SE3.act_add, SE3.act_add,
      SE3.act_add, SE3.act_sub, Motion.act_cross hoi, Motion.act_cross hoi, Motion.act_cross hoi, eo, eo, ih,
      V_var h hc hp hq _ _ _ hi]
    change s.oj q δa i + ((s.eV q w v δv i).cross (s.oj q v i) + (s.oV q v i).cross (s.oj q δv i))
      + (s.hA a0 q w v δv a δa (s.par i) - (s.oV q v (s.par i)).cross (s.eV q w v δv (s.par i))
        - (s.oj q w i).cross (s.wA a0 q v a (s.par i))) = _
    rw [eV_step h1 hpi, oV_step' hp hq v h1 hi]
    generalize s.eV q w v δv (s.par i) = E
    generalize s.oj q v i = jv
    generalize s.oj q w i = jw
    generalize s.oj q δv i = dv
    generalize s.oV q v (s.par i) = V
    generalize s.wA a0 q v a (s.par i) = A
    simp only [Motion.add_cross, Motion.cross_add]
    rw [Motion.cross_anti E jv, Motion.cross_anti (V.cross jw) jv, Motion.cross_anti dv jv, Motion.cross_anti jw A]
    abel
end Sys
end
end Pin
