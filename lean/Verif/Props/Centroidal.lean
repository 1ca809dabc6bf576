import Verif.Algo.CentroidalLemmas
import Verif.Props.Com
import Verif.Props.Coriolis

/-!
# C20, C45 — centroidal momentum, centroidal map and their time variations

Specification: `Spec/Centroidal.lean` (sums over the bodies, moments about a point).
-/

namespace Pin
open Finset DualNumber TrivSqZeroExt
universe u

section field
variable {K : Type u} [Field K] {s : Sys K}

theorem vcom_eq (hp : ParOk s.par s.n) (q v : ℕ → K) : (s.subMass 0)⁻¹ • (s.hsum q v).lin = s.comVel q v 0 := by
  rw [hsum_lin hp]; rfl

theorem lin_eq (hp : ParOk s.par s.n) (q v : ℕ → K) (hM : s.subMass 0 ≠ 0) :
    (s.hsum q v).lin = s.subMass 0 • s.comVel q v 0 := by
  rw [← vcom_eq hp, smul_smul, mul_inv_cancel₀ hM, one_smul]

/-- `computeCentroidalMomentum`: `hg` is the sum of the momenta of the bodies about the centre of mass, its linear part is
the total mass times the velocity of the centre of mass; `com[0]`, `vcom[0]` and `mass[0]` are stored -/
theorem C20_momentum (hp : ParOk s.par s.n) (d : Data K) {q : ℕ → K} (hq : s.At q) (v : ℕ → K) :
    (computeCentroidalMomentum s d q v).hg = (s.hsum q v).atPoint (s.comPos q 0) ∧
    (computeCentroidalMomentum s d q v).com 0 = s.comPos q 0 ∧
    (computeCentroidalMomentum s d q v).vcom 0 = s.comVel q v 0 ∧
    (computeCentroidalMomentum s d q v).mass 0 = s.subMass 0 ∧
    (s.subMass 0 ≠ 0 → (computeCentroidalMomentum s d q v).hg.lin = s.subMass 0 • s.comVel q v 0) := by
  obtain ⟨h0, hv⟩ := fk1_ok hp d hq v
  have o := computeCentroidalMomentumD_out hp hq (fun i h1 hi => (h0 i h1 hi).1) (fun i h1 hi => (hv i h1 hi).1)
  refine ⟨o.hg, o.com, o.vcom.trans (vcom_eq hp q v), o.mass, fun hM => ?_⟩
  unfold computeCentroidalMomentum
  rw [o.hg, ← lin_eq hp q v hM]; rfl
end field

section ordered
variable {K : Type u} [Field K] [LinearOrder K] [IsStrictOrderedRing K] [HasEps K] {s : Sys K}

theorem lever_com {q : ℕ → K} (hM : s.subMass 0 ≠ 0) {Y : Inertia K} (h : Y.matrix = s.oYm q 0) :
    Y.lever = s.comPos q 0 := by
  obtain ⟨m1, m2⟩ := inertia_of_matrix h
  unfold Sys.comPos
  rw [← m2, m1, smul_smul, inv_mul_cancel₀ hM, one_smul]

/-- `computeCentroidalMap`: `Ag(q) v` is the centroidal momentum, for every joint velocity -/
theorem C20_map (h : s.Packed) (hm : s.MassesOk) (hM : s.subMass 0 ≠ 0) (d : Data K) {q : ℕ → K} (hq : s.At q) :
    (∀ v, ∑ r ∈ range s.nv, v r • (computeCentroidalMap s d q).Ag r = (s.hsum q v).atPoint (s.comPos q 0)) ∧
    (computeCentroidalMap s d q).com 0 = s.comPos q 0 := by
  have o := ccrbaCore_ok h hm d q
  have hl := lever_com hM (o.Y.root h.par)
  rw [computeCentroidalMap_core]
  refine ⟨fun v => ?_, ?_⟩
  · dsimp only
    rw [upd_self, hl]
    refine (mulCols_about _ _ _ v).trans ?_
    rw [Ag_mul h hq (fun i i1 hi k hk => o.Ag i i1 i1 hi k hk)]
  · dsimp only
    rw [upd_self, hl]

/-- `ccrba`: `Ag` is the matrix of `computeCentroidalMap`, `hg = Ag v` is what `computeCentroidalMomentum` returns -/
theorem C20_ccrba (h : s.Packed) (hm : s.MassesOk) (hM : s.subMass 0 ≠ 0) (d d' d'' : Data K) {q : ℕ → K} (hq : s.At q)
    (v : ℕ → K) :
    (∀ r, r < s.nv → (ccrba s d q v).Ag r = (computeCentroidalMap s d' q).Ag r) ∧
    (ccrba s d q v).hg = ∑ r ∈ range s.nv, v r • (ccrba s d q v).Ag r ∧
    (ccrba s d q v).hg = (s.hsum q v).atPoint (s.comPos q 0) ∧
    (ccrba s d q v).hg = (computeCentroidalMomentum s d'' q v).hg ∧
    (ccrba s d q v).com 0 = s.comPos q 0 := by
  have key : (ccrba s d q v).hg = (s.hsum q v).atPoint (s.comPos q 0) := (C20_map h hm hM d hq).1 v
  refine ⟨fun r hr => ?_, rfl, key, key.trans (C20_momentum h.par d'' hq v).1.symm, (C20_map h hm hM d hq).2⟩
  have e : (ccrba s d q v).Ag = (computeCentroidalMap s d q).Ag := rfl
  have e1 := (C20_map h hm hM d hq).1 (Sys.unit r)
  have e2 := (C20_map h hm hM d' hq).1 (Sys.unit r)
  have sel : ∀ A : ℕ → Force K, ∑ c ∈ range s.nv, (Sys.unit r : ℕ → K) c • A c = A r := by
    intro A
    rw [sum_eq_single r]
    · simp [Sys.unit]
    · intro c _ hc; simp [Sys.unit, hc]
    · intro hn; exact absurd (mem_range.2 hr) hn
  rw [sel] at e1 e2
  rw [e, e1, e2]

/-- `ccrba`: `Ig` is the inertia of the system locked in its configuration, about the centre of mass: if all bodies move
with the spatial velocity that is `w` at the centre of mass, their total momentum about the centre of mass is `Ig w` -/
theorem C20_Ig (h : s.Packed) (hm : s.MassesOk) (hM : s.subMass 0 ≠ 0) (d : Data K) {q : ℕ → K} (hq : s.At q)
    (v : ℕ → K) (w : Motion K) :
    (ccrba s d q v).Ig.mul w = (∑ b ∈ Ico 1 s.n, (s.oM q b).actF ((s.Y b).mul
      ((s.oM q b).actInv ⟨w.lin - w.ang.cross (s.comPos q 0), w.ang⟩))).atPoint (s.comPos q 0) := by
  have o := ccrbaCore_ok h hm d q
  have hY := o.Y.root h.par
  have hl := lever_com hM hY
  have eI : (ccrba s d q v).Ig = ⟨((ccrbaCore s d q).oYcrb 0).mass, 0, ((ccrbaCore s d q).oYcrb 0).rotI⟩ := rfl
  have e1 : ∀ m : Motion K, ∑ b ∈ Ico 1 s.n, (s.oM q b).actF ((s.Y b).mul ((s.oM q b).actInv m))
      = ((ccrbaCore s d q).oYcrb 0).mul m := by
    intro m
    rw [← Inertia.matrix_mulMF, hY]
    unfold Sys.oYm
    rw [subtree_root h.par, M6.sum_mulMF]
    apply sum_congr rfl
    intro b hb
    unfold Sys.oI
    rw [Inertia.matrix_mulMF, Inertia.act_mul (s.oM_valid h.par hq b (mem_Ico.1 hb).2)]
  rw [e1, eI, ← hl]
  generalize (ccrbaCore s d q).oYcrb 0 = Y
  ext <;> simp [-mul_eq_mul_left_iff, Inertia.mul, Force.atPoint, Sym3.mulVec] <;> ring

/-- `crba` (world convention) leaves the centroidal map in `Ag` too -/
theorem C20_crba_Ag (h : s.Packed) (hc : crbaCheck s.par s.n = true) (hm : s.MassesOk) (hM : s.subMass 0 ≠ 0)
    (d : Data K) {q : ℕ → K} (hq : s.At q) (v : ℕ → K) :
    ∑ r ∈ range s.nv, v r • (crbaWorld s d q).Ag r = (s.hsum q v).atPoint (s.comPos q 0) := by
  have hcm := (crbaCheck_iff h.par).1 hc
  have hB := crbaWorld_cwb h hcm hm d q
  have hcom := (C19_crba_com h hc hm d hq hM).2
  have e : (crbaWorld s d q).Ag = aboutCols s.nv (bwd (crbaWorldBwd s) s.n (fwd (crbaWorldFwd s q) s.n
      { d with oYcrb := upd d.oYcrb 0 0 })).Ag ((crbaWorld s d q).com 0) := rfl
  rw [e, hcom]
  refine (mulCols_about _ _ _ v).trans ?_
  rw [Ag_mul h hq (fun i i1 hi k hk => hB.Ag i i1 i1 hi k hk)]
end ordered

/-! ## time variations -/
section field
variable {K : Type u} [Field K] {s : Sys K}

/-- `computeCentroidalMomentumTimeVariation`: same `hg`, `com[0]`, `vcom[0]`; `dhg` is the sum over the bodies of
`Y a + v ×* (Y v)` about the centre of mass -/
theorem C45_dhg (hp : ParOk s.par s.n) (d d' : Data K) {q : ℕ → K} (hq : s.At q) (v a : ℕ → K) :
    (computeCentroidalMomentumTimeVariation s d q v a).dhg = (s.dhsum q v a).atPoint (s.comPos q 0) ∧
    (computeCentroidalMomentumTimeVariation s d q v a).hg = (computeCentroidalMomentum s d' q v).hg ∧
    (computeCentroidalMomentumTimeVariation s d q v a).com 0 = s.comPos q 0 ∧
    (computeCentroidalMomentumTimeVariation s d q v a).vcom 0 = s.comVel q v 0 ∧
    (computeCentroidalMomentumTimeVariation s d q v a).mass 0 = s.subMass 0 := by
  obtain ⟨h0, hv, ha⟩ := fk2_ok hp d hq v a
  obtain ⟨o, od⟩ := computeCentroidalMomentumTimeVariationD_out hp hq (fun i h1 hi => (h0 i h1 hi).1)
    (fun i h1 hi => (hv i h1 hi).1) (fun i _ hi => ha i hi)
  exact ⟨od, o.hg.trans (C20_momentum hp d' hq v).1.symm, o.com, o.vcom.trans (vcom_eq hp q v), o.mass⟩

theorem SE3.Moves.snd_actF {Mε : SE3 K[ε]} {M : SE3 K} {ν : Motion K} (h : Mε.Moves M ν) (hv : M.Valid) (f : Force K[ε]) :
    (Mε.actF f).map snd = M.actF (ν.crossF (f.map fst) + f.map snd) := by
  have e1 := h.rot
  have e2 := h.trans
  have e0 := h.base
  have l : (Mε.rot.mulVec f.lin).map snd = M.rot.mulVec (ν.ang.cross (f.map fst).lin + (f.map snd).lin) := by
    rw [M3.mulVec_add, ← M3.skew_mulVec, ← M3.mulVec_mulVec, ← e1, ← e0]
    ext <;> simp [V3.map, M3.map, SE3.map, Force.map] <;> ring
  have l0 : (Mε.rot.mulVec f.lin).map fst = M.rot.mulVec (f.map fst).lin := by
    rw [← e0]
    ext <;> simp [V3.map, M3.map, SE3.map, Force.map]
  have a : (Mε.rot.mulVec f.ang).map snd = M.rot.mulVec (ν.ang.cross (f.map fst).ang + (f.map snd).ang) := by
    rw [M3.mulVec_add, ← M3.skew_mulVec, ← M3.mulVec_mulVec, ← e1, ← e0]
    ext <;> simp [V3.map, M3.map, SE3.map, Force.map] <;> ring
  have t0 : Mε.trans.map fst = M.trans := by rw [← e0]; rfl
  have x : M.rot.mulVec (ν.lin.cross (f.map fst).lin) = (M.rot.mulVec ν.lin).cross (M.rot.mulVec (f.map fst).lin) :=
    M3.IsRot.mulVec_cross hv _ _
  have el : (Mε.actF f).lin = Mε.rot.mulVec f.lin := rfl
  have ea : (Mε.actF f).ang = Mε.rot.mulVec f.ang + Mε.trans.cross (Mε.rot.mulVec f.lin) := by
    ext <;> simp [SE3.actF] <;> ring
  have rl : (M.actF (ν.crossF (f.map fst) + f.map snd)).lin
      = M.rot.mulVec (ν.ang.cross (f.map fst).lin + (f.map snd).lin) := by
    ext <;> simp [SE3.actF, Motion.crossF] <;> ring
  have ra : (M.actF (ν.crossF (f.map fst) + f.map snd)).ang
      = M.rot.mulVec (ν.ang.cross (f.map fst).ang + (f.map snd).ang) + M.rot.mulVec (ν.lin.cross (f.map fst).lin)
        + M.trans.cross (M.rot.mulVec (ν.ang.cross (f.map fst).lin + (f.map snd).lin)) := by
    ext <;> simp [SE3.actF, Motion.crossF] <;> ring
  have key : ((Mε.actF f).map snd).lin = _ := l
  have key2 : ((Mε.actF f).map snd).ang = (M.actF (ν.crossF (f.map fst) + f.map snd)).ang := by
    rw [ra, x, ← e2, ← l, ← a, ← l0, ← t0]
    show (Mε.actF f).ang.map snd = _
    rw [ea]
    generalize Mε.rot.mulVec f.ang = A
    generalize Mε.rot.mulVec f.lin = B
    generalize Mε.trans = T
    ext <;> simp [V3.map] <;> ring
  have key1 : ((Mε.actF f).map snd).lin = (M.actF (ν.crossF (f.map fst) + f.map snd)).lin := by rw [rl]; exact key
  exact Force.ext key1 key2

theorem Force.map_snd_sum {ι : Type*} (t : Finset ι) (g : ι → Force K[ε]) :
    (∑ i ∈ t, g i).map snd = ∑ i ∈ t, (g i).map snd := by
  classical
  induction t using Finset.induction_on with
  | empty => rw [sum_empty, sum_empty]; ext <;> simp [Force.map, V3.map]
  | insert a t ha ih => rw [sum_insert ha, sum_insert ha, ← ih]; ext <;> simp [Force.map, V3.map]

theorem Force.map_fst_sum {ι : Type*} (t : Finset ι) (g : ι → Force K[ε]) :
    (∑ i ∈ t, g i).map fst = ∑ i ∈ t, (g i).map fst := by
  classical
  induction t using Finset.induction_on with
  | empty => rw [sum_empty, sum_empty]; ext <;> simp [Force.map, V3.map]
  | insert a t ha ih => rw [sum_insert ha, sum_insert ha, ← ih]; ext <;> simp [Force.map, V3.map]

theorem SE3.Moves.fst_actF {Mε : SE3 K[ε]} {M : SE3 K} {ν : Motion K} (h : Mε.Moves M ν) (f : Force K[ε]) :
    (Mε.actF f).map fst = M.actF (f.map fst) := by
  rw [← h.base]
  ext <;> simp [SE3.actF, Force.map, SE3.map, V3.map, M3.map]

/-- value and derivative of the total momentum over dual numbers -/
theorem hsum_fst {sε : Sys K[ε]} {q v dq : ℕ → K} (hs : s.Along sε q v dq) (hp : ParOk s.par s.n) (hq : s.At q)
    (w b : ℕ → K) : (sε.hsum (perturb q dq) (perturb w b)).map fst = s.hsum q w := by
  unfold Sys.hsum
  rw [Force.map_fst_sum, hs.n]
  apply sum_congr rfl
  intro c hc
  have hcn := (mem_Ico.1 hc).2
  rw [(Sys.oM_moves hs hp hq c hcn).fst_actF, hs.Y, Inertia.fst_mul, Sys.V_fst hs hp hq w b c hcn]

theorem hsum_snd {sε : Sys K[ε]} {q v dq : ℕ → K} (hs : s.Along sε q v dq) (hp : ParOk s.par s.n) (hq : s.At q)
    (w b : ℕ → K) : (sε.hsum (perturb q dq) (perturb w b)).map snd
      = ∑ c ∈ Ico 1 s.n, (s.oM q c).actF ((s.V q v c).crossF ((s.Y c).mul (s.V q w c))
        + (s.Y c).mul ((sε.V (perturb q dq) (perturb w b) c).map snd)) := by
  unfold Sys.hsum
  rw [Force.map_snd_sum, hs.n]
  apply sum_congr rfl
  intro c hc
  have hcn := (mem_Ico.1 hc).2
  rw [(Sys.oM_moves hs hp hq c hcn).snd_actF (s.oM_valid hp hq c hcn), hs.Y, Inertia.snd_mul, Inertia.fst_mul,
    Sys.V_fst hs hp hq w b c hcn]

/-- the centre of mass over dual numbers: position and velocity -/
theorem com_dual {sε : Sys K[ε]} {q v dq : ℕ → K} (hs : s.Along sε q v dq) (hp : ParOk s.par s.n) (hq : s.At q)
    (hM : s.subMass 0 ≠ 0) {c : V3 K[ε]} (hc : sε.subMass 0 • c = sε.msum (sε.pcom (perturb q dq)) 0) :
    c.map fst = s.comPos q 0 ∧ c.map snd = s.comVel q v 0 := by
  have hm : sε.subMass 0 = inl (s.subMass 0) := by
    unfold Sys.subMass
    rw [hs.par, hs.n, ← inlHom_apply, map_sum]
    exact sum_congr rfl fun b _ => by rw [hs.Y]; rfl
  have e2 := msum_snd hs 0 (fun b _ hb => pcom_snd hs hp hq hb)
  have e1 : (sε.msum (sε.pcom (perturb q dq)) 0).map fst = s.msum (s.pcom q) 0 := by
    have hsum : ∀ (t : Finset ℕ) (g : ℕ → V3 K[ε]), (∑ i ∈ t, g i).map fst = ∑ i ∈ t, (g i).map fst := by
      classical
      intro t g
      induction t using Finset.induction_on with
      | empty => rw [sum_empty, sum_empty]; ext <;> simp [V3.map]
      | insert a t ha ih => rw [sum_insert ha, sum_insert ha, ← ih]; ext <;> simp [V3.map]
    unfold Sys.msum
    rw [hsum, hs.par, hs.n]
    apply sum_congr rfl
    intro b hb
    have hb := (mem_subtree.1 hb).1.2
    have e0 := (Sys.oM_moves hs hp hq b hb).base
    unfold Sys.pcom
    rw [hs.Y, ← e0]
    ext <;> simp [-mul_eq_mul_left_iff, V3.map, M3.map, SE3.map, Inertia.map, SE3.actP] <;> ring
  rw [← hc, hm] at e1 e2
  have f1 : ((inl (s.subMass 0) : K[ε]) • c).map fst = s.subMass 0 • c.map fst := by
    ext <;> simp [V3.map]
  have f2 : ((inl (s.subMass 0) : K[ε]) • c).map snd = s.subMass 0 • c.map snd := by
    ext <;> simp [V3.map]
  rw [f1] at e1
  rw [f2] at e2
  unfold Sys.comPos Sys.comVel
  rw [← e1, ← e2, smul_smul, smul_smul, inv_mul_cancel₀ hM, one_smul, one_smul]
  exact ⟨rfl, rfl⟩

theorem atPoint_snd (f : Force K[ε]) (c : V3 K[ε]) : (f.atPoint c).map snd
    = (f.map snd).atPoint (c.map fst) - ⟨0, (c.map snd).cross (f.map fst).lin⟩ := by
  ext <;> simp [Force.atPoint, Force.map, V3.map] <;> ring

/-- `dhg` is the time derivative of `hg` along `q̇ = v`, `v̇ = a`: over dual numbers, with `c` the centre of mass of
the moving system -/
theorem C45_dhg_derivative (hp : ParOk s.par s.n) (d : Data K) {q v dq : ℕ → K} (hq : s.At q)
    {sε : Sys K[ε]} (hs : s.Along sε q v dq) (a : ℕ → K) (hM : s.subMass 0 ≠ 0) {c : V3 K[ε]}
    (hc : sε.subMass 0 • c = sε.msum (sε.pcom (perturb q dq)) 0) :
    (computeCentroidalMomentumTimeVariation s d q v a).dhg
      = ((sε.hsum (perturb q dq) (perturb v a)).atPoint c).map snd := by
  obtain ⟨c1, c2⟩ := com_dual hs hp hq hM hc
  rw [(C45_dhg hp d d hq v a).1, atPoint_snd, c1, c2, hsum_fst hs hp hq, hsum_snd hs hp hq, lin_eq hp q v hM]
  have : (⟨0, (s.comVel q v 0).cross (s.subMass 0 • s.comVel q v 0)⟩ : Force K) = 0 := by
    ext <;> simp <;> ring
  rw [this, sub_zero]
  unfold Sys.dhsum
  congr 1
  apply sum_congr rfl
  intro b hb
  rw [Sys.V_snd hs hp hq a b (mem_Ico.1 hb).2, add_comm]
end field

section ordered
variable {K : Type u} [Field K] [LinearOrder K] [IsStrictOrderedRing K] [HasEps K] {s : Sys K}

theorem Force.sum_cross {ι : Type*} (t : Finset ι) (k : ι → K) (g : ι → Force K) (x : V3 K) :
    ∑ i ∈ t, k i • (⟨0, (g i).lin.cross x⟩ : Force K) = ⟨0, (∑ i ∈ t, k i • g i).lin.cross x⟩ := by
  classical
  induction t using Finset.induction_on with
  | empty => rw [sum_empty, sum_empty]; ext <;> simp
  | insert a t ha ih => rw [sum_insert ha, sum_insert ha, ih]; ext <;> simp <;> ring

theorem mulCols_dabout (A dA : ℕ → Force K) (c x : V3 K) (n : ℕ) (w : ℕ → K) :
    mulCols n (daboutCols n (aboutCols n A c) dA c x) w
      = (∑ r ∈ range n, w r • dA r).atPoint c + ⟨0, (∑ r ∈ range n, w r • A r).lin.cross x⟩ := by
  rw [← atPoint_sum, ← Force.sum_cross, ← sum_add_distrib]
  unfold mulCols
  apply sum_congr rfl
  intro r hr
  unfold daboutCols aboutCols
  rw [if_pos (mem_range.1 hr), if_pos (mem_range.1 hr)]
  ext <;> simp [Force.about, Force.atPoint] <;> ring

/-- product of the columns of `dAg` (at the world origin) with a joint velocity -/
theorem dAg_mul (h : s.Packed) {q : ℕ → K} (hq : s.At q) {v : ℕ → K} {A : ℕ → Force K}
    (hA : ∀ i, 1 ≤ i → i < s.n → ∀ k, k < s.jnv i →
      A (s.iv i + k) = (s.dYm q v i).mulMF (s.Jc q i k) + (s.oYm q i).mulMF (s.dJc q v i k)) (w : ℕ → K) :
    ∑ r ∈ range s.nv, w r • A r = ∑ b ∈ Ico 1 s.n, ((s.oV q v b).crossF ((s.oI q b).mulMF (s.oV q w b))
      - (s.oI q b).mulMF ((s.oV q v b).cross (s.oV q w b)) + (s.oI q b).mulMF (s.dV q v w b)) := by
  classical
  -- the columns are split in two families
  let A1 : ℕ → Force K := fun r => if hr : r < s.nv then
    (s.dYm q v (h.cover hr).choose).mulMF (s.Jc q (h.cover hr).choose (h.cover hr).choose_spec.choose) else 0
  have e1 : ∀ i, 1 ≤ i → i < s.n → ∀ k, k < s.jnv i → A1 (s.iv i + k) = (s.dYm q v i).mulMF (s.Jc q i k) := by
    intro i i1 hi k hk
    have hr : s.iv i + k < s.nv := by have := h.le_nv i1 hi; omega
    have hsp := (h.cover hr).choose_spec.choose_spec
    obtain ⟨j1, hj, hl, e⟩ := hsp
    obtain ⟨a, b⟩ := h.inj j1 hj i1 hi hl hk e.symm
    simp only [A1, dif_pos hr]
    rw [b, a]
  have hsplit : ∀ r ∈ range s.nv, w r • A r = w r • A1 r + w r • (A r - A1 r) := by
    intro r _
    rw [← smul_add, add_sub_cancel]
  rw [sum_congr rfl hsplit, sum_add_distrib,
    cols_mul h (L := fun b => (((s.Y b).act (s.oM q b)).variation (s.oV q v b)).lin) (x := fun i k => s.Jc q i k) (A := A1)
      (by intro i i1 hi k hk; rw [e1 i i1 hi k hk]; unfold Sys.dYm; rw [M6.sum_mulMF]; rfl),
    cols_mul h (L := fun b => (s.oI q b).lin) (x := fun i k => s.dJc q v i k) (A := fun r => A r - A1 r)
      (by
        intro i i1 hi k hk
        rw [hA i i1 hi k hk, e1 i i1 hi k hk, add_sub_cancel_left]; unfold Sys.oYm; rw [M6.sum_mulMF]; rfl),
    ← sum_add_distrib]
  apply sum_congr rfl
  intro b hb
  rw [M6.lin_apply, M6.lin_apply]
  have f1 : ∑ i ∈ supp s.par s.n b, comb (fun k => s.Jc q i k) (s.jnv i) (s.vs w i) = s.oV q w b := by
    rw [Sys.oV_eq h.par hq w b (mem_Ico.1 hb).2]
    exact sum_congr rfl fun i _ => comb_Jc q w i
  have f2 : ∑ i ∈ supp s.par s.n b, comb (fun k => s.dJc q v i k) (s.jnv i) (s.vs w i) = s.dV q v w b := by
    unfold Sys.dV
    apply sum_congr rfl
    intro i _
    rw [← comb_Jc]
    unfold comb Sys.dJc
    rw [Motion.cross_sum']
    exact sum_congr rfl fun k _ => (Motion.cross_smul ..).symm
  rw [f1, f2]
  congr 1
  rw [Inertia.variation_mulMF]
  unfold Sys.oI
  rw [Inertia.matrix_mulMF, Inertia.matrix_mulMF]

theorem dccrbaCore_vcom (d : Data K) (q v : ℕ → K) : (dccrbaCore s d q v).vcom = d.vcom := by
  unfold dccrbaCore
  dsimp only
  have e1 : (forwardKinematicsV s d q v).vcom = d.vcom := by
    unfold forwardKinematicsV
    apply fwd_inv (P := fun (x : Data K) => x.vcom = d.vcom)
    · rfl
    · intro i x _ _ hx
      unfold fk1Step
      split <;> exact hx
  have e2 : (fwd (dccrbaFwd s) s.n { (forwardKinematicsV s d q v) with
      oYcrb := upd (forwardKinematicsV s d q v).oYcrb 0 0 }).vcom = d.vcom :=
    fwd_inv (P := fun (x : Data K) => x.vcom = d.vcom) e1 (fun i x _ _ hx => hx)
  generalize fwd (dccrbaFwd s) s.n _ = D at e2
  have : ∀ l : List ℕ, (l.foldr (dccrbaBwd s) D).vcom = d.vcom := by
    intro l
    induction l with
    | nil => exact e2
    | cons a l ih =>
      rw [List.foldr_cons]
      unfold dccrbaBwd
      dsimp only
      split <;> exact ih
  exact this _

/-- what `dccrba` and `computeCentroidalMapTimeVariation` leave, `x` being the velocity used in the shift of `dAg` -/
theorem dccrba_dAg (h : s.Packed) (hm : s.MassesOk) (hM : s.subMass 0 ≠ 0) (d : Data K) {q : ℕ → K} (hq : s.At q)
    (v : ℕ → K) (x : V3 K) (w : ℕ → K) :
    ∑ r ∈ range s.nv, w r • daboutCols s.nv (dccrbaCommon s d q v).Ag (dccrbaCommon s d q v).dAg
        ((dccrbaCommon s d q v).com 0) x r
      = (∑ b ∈ Ico 1 s.n, ((s.oV q v b).crossF ((s.oI q b).mulMF (s.oV q w b))
          - (s.oI q b).mulMF ((s.oV q v b).cross (s.oV q w b))
          + (s.oI q b).mulMF (s.dV q v w b))).atPoint (s.comPos q 0)
        + ⟨0, (s.hsum q w).lin.cross x⟩ := by
  have o := dccrbaCore_ok h hm d hq v
  have hl := lever_com hM (o.Y.root h.par)
  rw [dccrbaCommon_core]
  dsimp only
  rw [upd_self, hl]
  refine (mulCols_dabout _ _ _ _ _ w).trans ?_
  rw [Ag_mul h hq (fun i i1 hi k hk => o.Ag i i1 i1 hi k hk),
    dAg_mul h hq (fun i i1 hi k hk => o.dAg i i1 i1 hi k hk)]

theorem dccrba_Ag (h : s.Packed) (hm : s.MassesOk) (hM : s.subMass 0 ≠ 0) (d : Data K) {q : ℕ → K} (hq : s.At q)
    (v w : ℕ → K) :
    ∑ r ∈ range s.nv, w r • (dccrbaCommon s d q v).Ag r = (s.hsum q w).atPoint (s.comPos q 0) ∧
    (dccrbaCommon s d q v).com 0 = s.comPos q 0 ∧ ((dccrbaCommon s d q v).oYcrb 0).matrix = s.oYm q 0 := by
  have o := dccrbaCore_ok h hm d hq v
  have hl := lever_com hM (o.Y.root h.par)
  rw [dccrbaCommon_core]
  refine ⟨?_, ?_, o.Y.root h.par⟩
  · dsimp only
    rw [upd_self, hl]
    refine (mulCols_about _ _ _ w).trans ?_
    rw [Ag_mul h hq (fun i i1 hi k hk => o.Ag i i1 i1 hi k hk)]
  · dsimp only
    rw [upd_self, hl]

/-- `dccrba` leaves the same map, momentum, centre of mass and its velocity as the other algorithms -/
theorem C45_dccrba_side (h : s.Packed) (hm : s.MassesOk) (hM : s.subMass 0 ≠ 0) (d d' : Data K) {q : ℕ → K} (hq : s.At q)
    (v : ℕ → K) :
    (∀ w, ∑ r ∈ range s.nv, w r • (dccrba s d q v).Ag r = (s.hsum q w).atPoint (s.comPos q 0)) ∧
    (dccrba s d q v).hg = (ccrba s d' q v).hg ∧
    (dccrba s d q v).com 0 = s.comPos q 0 ∧ (dccrba s d q v).vcom 0 = s.comVel q v 0 := by
  have k1 := fun w => (dccrba_Ag h hm hM d hq v w).1
  have hg : (dccrba s d q v).hg = (s.hsum q v).atPoint (s.comPos q 0) := k1 v
  refine ⟨k1, ?_, (dccrba_Ag h hm hM d hq v v).2.1, ?_⟩
  · rw [hg, (C20_ccrba h hm hM d' d' d' hq v).2.2.1]
  · have e : (dccrba s d q v).vcom 0 = (dccrba s d q v).hg.lin.divS ((dccrbaCommon s d q v).oYcrb 0).mass :=
      upd_self (dccrbaCommon s d q v).vcom 0 _
    rw [e, hg, (inertia_of_matrix (dccrba_Ag h hm hM d hq v v).2.2).1, V3.divS_eq]
    exact vcom_eq h.par q v

theorem dccrba_shift (h : s.Packed) (hm : s.MassesOk) (hM : s.subMass 0 ≠ 0) (d : Data K) {q : ℕ → K} (hq : s.At q)
    (v : ℕ → K) : (dccrba s d q v).dAg = daboutCols s.nv (dccrbaCommon s d q v).Ag (dccrbaCommon s d q v).dAg
        ((dccrbaCommon s d q v).com 0) (s.comVel q v 0) := by
  have e : (dccrba s d q v).dAg = daboutCols s.nv (dccrbaCommon s d q v).Ag (dccrbaCommon s d q v).dAg
        ((dccrbaCommon s d q v).com 0) ((dccrba s d q v).vcom 0) := rfl
  rw [e, (C45_dccrba_side h hm hM d d hq v).2.2.2]

/-- `dAg v + Ag a`, plus a term in the biases `Ṡ v` of the joints, is `dhg` -/
theorem C45_dccrba (h : s.Packed) (hm : s.MassesOk) (hM : s.subMass 0 ≠ 0) (d d' : Data K) {q : ℕ → K} (hq : s.At q)
    (v a : ℕ → K) :
    (∑ r ∈ range s.nv, v r • (dccrba s d q v).dAg r) + (∑ r ∈ range s.nv, a r • (dccrba s d q v).Ag r)
      + (∑ b ∈ Ico 1 s.n, (s.oI q b).mulMF (∑ i ∈ supp s.par s.n b, (s.oM q i).act (s.cb q v i))).atPoint (s.comPos q 0)
      = (computeCentroidalMomentumTimeVariation s d' q v a).dhg := by
  rw [dccrba_shift h hm hM d hq, dccrba_dAg h hm hM d hq, (C45_dccrba_side h hm hM d d hq v).1 a, (C45_dhg h.par d' d' hq v a).1,
    lin_eq h.par q v hM]
  have z : (⟨0, (s.subMass 0 • s.comVel q v 0).cross (s.comVel q v 0)⟩ : Force K) = 0 := by
    ext <;> simp <;> ring
  have lin : ∀ f : Force K, f.atPoint (s.comPos q 0) = aboutLin (s.comPos q 0) f := fun _ => rfl
  rw [z, add_zero, lin, lin, lin, lin, ← map_add, ← map_add]
  congr 1
  rw [hsum_eq h.par hq, ← sum_add_distrib, ← sum_add_distrib]
  unfold Sys.dhsum
  apply sum_congr rfl
  intro b hb
  have hbn := (mem_Ico.1 hb).2
  have hR := s.oM_valid h.par hq b hbn
  have eA : (s.oM q b).actF ((s.Y b).mul (s.A 0 q v a b)) = (s.oI q b).mulMF (s.oA q v a b) := by
    unfold Sys.oI Sys.oA
    rw [Inertia.matrix_mulMF, Inertia.act_mul hR, SE3.actInv_act hR]
  have eV : (s.oM q b).actF ((s.V q v b).crossF ((s.Y b).mul (s.V q v b)))
      = (s.oV q v b).crossF ((s.oI q b).mulMF (s.oV q v b)) := by
    rw [← oh_eq h.par hq v hbn]
    unfold Sys.oh Sys.oV
    rw [Motion.act_crossF hR]
  rw [SE3.actF_add, eA, eV, Sys.oA_eq h.par hq v a b hbn, sum_add_distrib, sum_add_distrib, M6.mulMF_add, M6.mulMF_add,
    Motion.cross_self, M6.mulMF_zero, ← Sys.oV_eq h.par hq a b hbn]
  unfold Sys.dV
  abel

/-- for joints whose bias is zero at `q, v` (constant motion subspaces): `dAg v + Ag a = dhg`. Missing for the property:
joints with a bias, see `C45_dccrba` for the exact relation and `C45_counterexample` -/
theorem C45_dccrba_partial (h : s.Packed) (hm : s.MassesOk) (hM : s.subMass 0 ≠ 0) (d d' : Data K) {q : ℕ → K}
    (hq : s.At q) (v a : ℕ → K) (hb : ∀ i, 1 ≤ i → i < s.n → s.cb q v i = 0) :
    (∑ r ∈ range s.nv, v r • (dccrba s d q v).dAg r) + (∑ r ∈ range s.nv, a r • (dccrba s d q v).Ag r)
      = (computeCentroidalMomentumTimeVariation s d' q v a).dhg := by
  rw [← C45_dccrba h hm hM d d' hq v a, left_eq_add]
  have : ∑ b ∈ Ico 1 s.n, (s.oI q b).mulMF (∑ i ∈ supp s.par s.n b, (s.oM q i).act (s.cb q v i)) = 0 := by
    apply sum_eq_zero
    intro b _
    rw [sum_eq_zero, M6.mulMF_zero]
    intro i hi
    obtain ⟨⟨x, y⟩, -⟩ := mem_supp.1 hi
    rw [hb i x y]; simp
  rw [this]
  ext <;> simp [Force.atPoint]

/-- with constant motion subspaces, `dAg` is the time derivative of `Ag`, column by column: for every constant `w`,
`dAg w` is the derivative of `Ag w` along `q̇ = v` -/
theorem C45_dAg_derivative_partial (h : s.Packed) (hm : s.MassesOk) (hM : s.subMass 0 ≠ 0) (d : Data K)
    {q v dq : ℕ → K} (hq : s.At q) {sε : Sys K[ε]} (hs : s.Along sε q v dq)
    (hS : ∀ i, 1 ≤ i → i < s.n → ∀ k, k < s.jnv i → (sε.S (perturb q dq) i k).map snd = 0)
    {c : V3 K[ε]} (hc : sε.subMass 0 • c = sε.msum (sε.pcom (perturb q dq)) 0) (w : ℕ → K) :
    ∑ r ∈ range s.nv, w r • (dccrba s d q v).dAg r
      = ((sε.hsum (perturb q dq) (perturb w (fun _ => 0))).atPoint c).map snd := by
  obtain ⟨c1, c2⟩ := com_dual hs h.par hq hM hc
  rw [dccrba_shift h hm hM d hq v, dccrba_dAg h hm hM d hq v, atPoint_snd, c1, c2, hsum_fst hs h.par hq,
    hsum_snd hs h.par hq]
  have z : (⟨0, (s.hsum q w).lin.cross (s.comVel q v 0)⟩ : Force K) = - ⟨0, (s.comVel q v 0).cross (s.hsum q w).lin⟩ := by
    ext <;> simp <;> ring
  rw [z, ← sub_eq_add_neg]
  congr 2
  apply sum_congr rfl
  intro b hb
  have hbn := (mem_Ico.1 hb).2
  have hR := s.oM_valid h.par hq b hbn
  have eV := Sys.V_snd' hs h.par hq hS w b hbn
  rw [SE3.act_add, Motion.act_cross hR] at eV
  have eV' : (s.oM q b).act ((sε.V (perturb q dq) (perturb w fun _ => 0) b).map snd)
      = s.dV q v w b - (s.oV q v b).cross (s.oV q w b) := by
    rw [← eV]; unfold Sys.oV; rw [add_sub_cancel_right]
  have e1 : ∀ m, (s.oM q b).actF ((s.Y b).mul m) = (s.oI q b).mulMF ((s.oM q b).act m) := by
    intro m
    unfold Sys.oI
    rw [Inertia.matrix_mulMF, Inertia.act_mul hR, SE3.actInv_act hR]
  rw [SE3.actF_add, Motion.act_crossF hR, e1, e1, eV', M6.mulMF_sub]
  unfold Sys.oV
  abel

/-- `computeCentroidalMapTimeVariation` returns the matrix of `dccrba` when `vcom[0]` already holds the velocity of the
centre of mass at `q, v`. Missing for the property: the function does not compute `vcom[0]`,
see `C45_mapTimeVariation_counterexample` -/
theorem C45_mapTimeVariation_partial (h : s.Packed) (hm : s.MassesOk) (hM : s.subMass 0 ≠ 0) (d d' : Data K) {q : ℕ → K}
    (hq : s.At q) (v : ℕ → K) (hv : d.vcom 0 = s.comVel q v 0) {r : ℕ} (hr : r < s.nv) :
    (computeCentroidalMapTimeVariation s d q v).dAg r = (dccrba s d' q v).dAg r := by
  have sel : ∀ A : ℕ → Force K, ∑ c ∈ range s.nv, (Sys.unit r : ℕ → K) c • A c = A r := by
    intro A
    rw [sum_eq_single r]
    · simp [Sys.unit]
    · intro c _ hc; simp [Sys.unit, hc]
    · intro hn; exact absurd (mem_range.2 hr) hn
  have e1 : (dccrbaCommon s d q v).vcom 0 = s.comVel q v 0 := by
    rw [dccrbaCommon_core]; dsimp only; rw [dccrbaCore_vcom, hv]
  have e : (computeCentroidalMapTimeVariation s d q v).dAg = daboutCols s.nv (dccrbaCommon s d q v).Ag
    (dccrbaCommon s d q v).dAg ((dccrbaCommon s d q v).com 0) ((dccrbaCommon s d q v).vcom 0) := rfl
  rw [← sel (computeCentroidalMapTimeVariation s d q v).dAg, ← sel (dccrba s d' q v).dAg, e, e1,
    dccrba_shift h hm hM d' hq v, dccrba_dAg h hm hM d hq, dccrba_dAg h hm hM d' hq]
end ordered

set_option maxRecDepth 100000 in
/-- `computeCentroidalMapTimeVariation` depends on the history of `data`: on a fresh `Data` it does not return the matrix
of `dccrba` -/
theorem C45_mapTimeVariation_counterexample :
    Ex.sysA.Packed ∧ Ex.sysA.MassesOk ∧ Ex.sysA.At Ex.qA ∧
    ((computeCentroidalMapTimeVariation Ex.sysA Data.zero Ex.qA Ex.vA).dAg 0).ang
      ≠ ((dccrba Ex.sysA Data.zero Ex.qA Ex.vA).dAg 0).ang ∧
    ((computeCentroidalMapTimeVariation Ex.sysA (dccrba Ex.sysA Data.zero Ex.qA Ex.vA) Ex.qA Ex.vA).dAg 0).ang
      = ((dccrba Ex.sysA Data.zero Ex.qA Ex.vA).dAg 0).ang :=
  ⟨Ex.sysA_packed, Ex.sysA_masses, Ex.sysA_at, by decide +kernel, by decide +kernel⟩

set_option maxRecDepth 100000 in
/-- With a `JointModelSphericalZYX`, `dAg v + Ag a` is not the time derivative of the centroidal momentum. -/
theorem C45_counterexample :
    let q : ℕ → ℚ := fun k => if k = 1 then 1 else 0
    let v : ℕ → ℚ := fun _ => 1
    Ex.sysZ.Packed ∧ Ex.sysZ.MassesOk ∧ Ex.sysZ.At q ∧
    (∑ r ∈ range Ex.sysZ.nv, v r • (dccrba Ex.sysZ Data.zero q v).dAg r)
      ≠ (computeCentroidalMomentumTimeVariation Ex.sysZ Data.zero q v (fun _ => 0)).dhg := by
  intro q v
  obtain ⟨a, b, c⟩ := Ex.sysZ_ok
  refine ⟨a, ?_, c q, ?_⟩
  · intro i _ _; exact Ex.sysA_masses 1 (by decide) (by decide)
  · decide +kernel

/-- the hypotheses of the theorems above are met -/
example : Ex.sysA.Packed ∧ crbaCheck Ex.sysA.par Ex.sysA.n = true ∧ Ex.sysA.MassesOk ∧ Ex.sysA.At Ex.qA ∧
    Ex.sysA.Along Ex.sysAε Ex.qA Ex.vA Ex.dqA ∧ Ex.sysA.subMass 0 ≠ 0 ∧
    (∃ c : V3 ℚ[ε], Ex.sysAε.subMass 0 • c = Ex.sysAε.msum (Ex.sysAε.pcom (perturb Ex.qA Ex.dqA)) 0) := by
  have hM : Ex.sysA.subMass 0 ≠ 0 := by
    rw [← C19_subtreeMasses Ex.sysA_par Data.zero (by decide)]
    decide +kernel
  refine ⟨Ex.sysA_packed, by decide, Ex.sysA_masses, Ex.sysA_at, Ex.sysA_along, hM, ?_⟩
  have hm : Ex.sysAε.subMass 0 = inl (Ex.sysA.subMass 0) := by
    unfold Sys.subMass
    rw [Ex.sysA_along.par, Ex.sysA_along.n, ← inlHom_apply, map_sum]
    exact sum_congr rfl fun b _ => by rw [Ex.sysA_along.Y]; rfl
  refine ⟨(inl (Ex.sysA.subMass 0)⁻¹ : ℚ[ε]) • Ex.sysAε.msum (Ex.sysAε.pcom (perturb Ex.qA Ex.dqA)) 0, ?_⟩
  have e : (inl (Ex.sysA.subMass 0) : ℚ[ε]) * inl (Ex.sysA.subMass 0)⁻¹ = 1 := by
    rw [← inl_mul, mul_inv_cancel₀ hM, inl_one]
  rw [hm]
  ext1 <;> simp only [V3.smul_x, V3.smul_y, V3.smul_z, ← mul_assoc, e, one_mul]

end Pin
