import Verif.Algo.ComJacLemmas
import Verif.Props.Jacobian
import Verif.Algo.Examples

/-!
# C19 — centre of mass and its Jacobians

Specification: `Spec/Com.lean` (`subMass`, `comPos`, `comVel`, `comAcc` are sums over the bodies of a subtree).
-/

namespace Pin
open Finset DualNumber TrivSqZeroExt
variable {K : Type*} [Field K] {s : Sys K}

/-- `computeTotalMass` is the sum of the masses of the bodies -/
theorem C19_totalMass (s : Sys K) (d : Data K) :
    computeTotalMass s = ∑ b ∈ Ico 1 s.n, (s.Y b).mass ∧
    (computeTotalMassD s d).mass 0 = ∑ b ∈ Ico 1 s.n, (s.Y b).mass := by
  have e : computeTotalMass s = ∑ b ∈ Ico 1 s.n, (s.Y b).mass := by
    rcases Nat.eq_zero_or_pos s.n with h | h
    · unfold computeTotalMass; rw [h]; rfl
    · exact fwd_ind (P := fun k (m : K) => m = ∑ b ∈ Ico 1 k, (s.Y b).mass) h (by simp)
        (fun i m h1 _ ih => by rw [sum_Ico_succ_top h1, ih])
  exact ⟨e, (upd_self d.mass 0 _).trans e⟩

/-- `computeSubtreeMasses` stores the mass of every subtree, the whole model in `mass[0]` -/
theorem C19_subtreeMasses (hp : ParOk s.par s.n) (d : Data K) {i : ℕ} (hi : i < s.n) :
    (computeSubtreeMasses s d).mass i = s.subMass i := by
  have hn := hp.1
  unfold computeSubtreeMasses
  have h1 := fwd_ind (step := fun i (d : Data K) => { d with mass := upd d.mass i (s.Y i).mass })
    (d := { d with mass := upd d.mass 0 0 })
    (P := fun k (d : Data K) => ∀ i, i < k → d.mass i = if i = 0 then 0 else (s.Y i).mass) hn
    (fun i hi => by
      have : i = 0 := by omega
      subst this; exact upd_self d.mass 0 0)
    (fun i d h1 _ ih => upd_lt_succ ih (by rw [if_neg (by omega)]))
  have h2 := bwd_ind (step := fun i (d : Data K) =>
      { d with mass := upd d.mass (s.par i) (d.mass (s.par i) + d.mass i) })
    (P := fun k (d : Data K) => Col s.par s.n (fun _ x => x) (fun i => if i = 0 then 0 else (s.Y i).mass) s.subMass
      false (fun _ => id) k d.mass) hn (Col.start _ _ _ h1)
    (fun i d h1 hi h => h.step hp h1 hi (subMass_acc hp) (t := d.mass i) rfl (D' := id) rfl)
  rcases Nat.eq_zero_or_pos i with rfl | hpos
  · exact h2.acc.root.trans (by rw [if_pos rfl, zero_add, subMass_root hp])
  · exact h2.fin i hpos hi

theorem com_out0 (hp : ParOk s.par s.n) (d : Data K) {q : ℕ → K} (hq : s.At q) (sub : Bool) :
    ComOut s q 0 0 .POSITION sub (centerOfMass s d q sub) :=
  centerOfMass_out hp hq _ sub (fun i h1 hi => (fk0_ok hp d q i h1 hi).1) (fun h => by cases h) (fun h => by cases h)

theorem com_out1 (hp : ParOk s.par s.n) (d : Data K) {q : ℕ → K} (hq : s.At q) (v : ℕ → K) (sub : Bool) :
    ComOut s q v 0 .VELOCITY sub (centerOfMassV s d q v sub) :=
  centerOfMass_out hp hq _ sub (fun i h1 hi => ((fk1_ok hp d hq v).1 i h1 hi).1)
    (fun _ i h1 hi => ((fk1_ok hp d hq v).2 i h1 hi).1) (fun h => by cases h)

theorem com_out2 (hp : ParOk s.par s.n) (d : Data K) {q : ℕ → K} (hq : s.At q) (v a : ℕ → K) (sub : Bool) :
    ComOut s q v a .ACCELERATION sub (centerOfMassA s d q v a sub) :=
  centerOfMass_out hp hq _ sub (fun i h1 hi => ((fk2_ok hp d hq v a).1 i h1 hi).1)
    (fun _ i h1 hi => ((fk2_ok hp d hq v a).2.1 i h1 hi).1) (fun _ i _ hi => (fk2_ok hp d hq v a).2.2 i hi)

theorem lcom_world (hp : ParOk s.par s.n) {q : ℕ → K} (hq : s.At q) {i : ℕ} (hi : i < s.n) (hm : s.subMass i ≠ 0) :
    (s.oM q i).actP ((s.subMass i)⁻¹ • s.lcom q i) = s.comPos q i := by
  have hR := s.oM_valid hp hq i hi
  have key : (s.oM q i).rot.mulVec (s.lcom q i) + s.subMass i • (s.oM q i).trans = s.msum (s.pcom q) i := by
    unfold Sys.lcom Sys.subMass Sys.msum
    rw [M3.mulVec_sum, Finset.sum_smul, ← sum_add_distrib]
    apply sum_congr rfl
    intro b _
    rw [M3.mulVec_smul', ← smul_add]
    congr 1
    unfold SE3.actInvP
    rw [M3.IsRot.mulVec_tr_mulVec hR]
    ext <;> simp
  unfold Sys.comPos
  rw [← key, smul_add, smul_smul, inv_mul_cancel₀ hm, one_smul]
  unfold SE3.actP
  rw [M3.mulVec_smul']

theorem lvec_world (hp : ParOk s.par s.n) {q : ℕ → K} (hq : s.At q) {i : ℕ} (hi : i < s.n) (w : ℕ → V3 K) :
    (s.oM q i).rot.mulVec ((s.subMass i)⁻¹ • s.lvec q w i) = (s.subMass i)⁻¹ • s.msum w i := by
  have hR := s.oM_valid hp hq i hi
  unfold Sys.lvec Sys.msum
  rw [M3.mulVec_smul', M3.mulVec_sum]
  congr 1
  apply sum_congr rfl
  intro b _
  rw [M3.mulVec_smul', M3.IsRot.mulVec_tr_mulVec hR]

/-- `centerOfMass(q)`: `com[0]` is the mass-weighted mean of the positions of the bodies' centres of mass in the
world, and `mass[i]` is the mass of the subtree of `i` -/
theorem C19_com (hp : ParOk s.par s.n) (d : Data K) {q : ℕ → K} (hq : s.At q) (sub : Bool) :
    (centerOfMass s d q sub).com 0
      = (∑ b ∈ Ico 1 s.n, (s.Y b).mass)⁻¹ • ∑ b ∈ Ico 1 s.n, (s.Y b).mass • (s.oM q b).actP (s.Y b).lever ∧
    ∀ i, i < s.n → (centerOfMass s d q sub).mass i = s.subMass i := by
  refine ⟨?_, (com_out0 hp d hq sub).mass⟩
  rw [(com_out0 hp d hq sub).com0]
  unfold Sys.subMass Sys.msum
  rw [subtree_root hp]
  rfl

/-- with `computeSubtreeComs`, `com[i]` is the centre of mass of the subtree of `i`, in the frame of joint `i` -/
theorem C19_com_subtree (hp : ParOk s.par s.n) (d : Data K) {q : ℕ → K} (hq : s.At q) {i : ℕ} (h1 : 1 ≤ i) (hi : i < s.n)
    (hm : s.subMass i ≠ 0) :
    (s.oM q i).actP ((centerOfMass s d q true).com i) = s.comPos q i := by
  rw [(com_out0 hp d hq true).com i h1 hi, if_pos rfl, lcom_world hp hq hi hm]

/-- `centerOfMass(q, v)`: same positions, velocity of the centre of mass in `vcom[0]`, and of the subtrees in the axes
of their root joint -/
theorem C19_velocity (hp : ParOk s.par s.n) (d : Data K) {q : ℕ → K} (hq : s.At q) (v : ℕ → K) (sub : Bool) :
    (centerOfMassV s d q v sub).com 0 = s.comPos q 0 ∧
    (centerOfMassV s d q v sub).vcom 0 = s.comVel q v 0 ∧
    (∀ i, i < s.n → (centerOfMassV s d q v sub).mass i = s.subMass i) ∧
    ∀ i, 1 ≤ i → i < s.n → s.subMass i ≠ 0 →
      (s.oM q i).actP ((centerOfMassV s d q v true).com i) = s.comPos q i ∧
      (s.oM q i).rot.mulVec ((centerOfMassV s d q v true).vcom i) = s.comVel q v i := by
  have h := com_out1 hp d hq v sub
  have h' := com_out1 hp d hq v true
  refine ⟨h.com0, h.vcom0 rfl, h.mass, fun i h1 hi hm => ⟨?_, ?_⟩⟩
  · rw [h'.com i h1 hi, if_pos rfl, lcom_world hp hq hi hm]
  · rw [h'.vcom rfl i h1 hi, if_pos rfl, lvec_world hp hq hi]; rfl

/-- `centerOfMass(q, v, a)` -/
theorem C19_acceleration (hp : ParOk s.par s.n) (d : Data K) {q : ℕ → K} (hq : s.At q) (v a : ℕ → K) (sub : Bool) :
    (centerOfMassA s d q v a sub).com 0 = s.comPos q 0 ∧
    (centerOfMassA s d q v a sub).vcom 0 = s.comVel q v 0 ∧
    (centerOfMassA s d q v a sub).acom 0 = s.comAcc q v a 0 ∧
    (∀ i, i < s.n → (centerOfMassA s d q v a sub).mass i = s.subMass i) ∧
    ∀ i, 1 ≤ i → i < s.n → s.subMass i ≠ 0 →
      (s.oM q i).actP ((centerOfMassA s d q v a true).com i) = s.comPos q i ∧
      (s.oM q i).rot.mulVec ((centerOfMassA s d q v a true).vcom i) = s.comVel q v i ∧
      (s.oM q i).rot.mulVec ((centerOfMassA s d q v a true).acom i) = s.comAcc q v a i := by
  have h := com_out2 hp d hq v a sub
  have h' := com_out2 hp d hq v a true
  refine ⟨h.com0, h.vcom0 rfl, h.acom0 rfl, h.mass, fun i h1 hi hm => ⟨?_, ?_, ?_⟩⟩
  · rw [h'.com i h1 hi, if_pos rfl, lcom_world hp hq hi hm]
  · rw [h'.vcom rfl i h1 hi, if_pos rfl, lvec_world hp hq hi]; rfl
  · rw [h'.acom rfl i h1 hi, if_pos rfl, lvec_world hp hq hi]; rfl

theorem V3.map_snd_sum {ι : Type*} (t : Finset ι) (g : ι → V3 K[ε]) :
    (∑ i ∈ t, g i).map snd = ∑ i ∈ t, (g i).map snd := by
  classical
  induction t using Finset.induction_on with
  | empty => rw [sum_empty, sum_empty]; ext <;> simp [V3.map]
  | insert a t ha ih => rw [sum_insert ha, sum_insert ha, ← ih]; ext <;> simp [V3.map]

theorem msum_snd {sε : Sys K[ε]} {q v dq : ℕ → K} (hs : s.Along sε q v dq) {w : ℕ → V3 K[ε]} {w' : ℕ → V3 K} (i : ℕ)
    (hw : ∀ b, 1 ≤ b → b < s.n → (w b).map snd = w' b) : (sε.msum w i).map snd = s.msum w' i := by
  unfold Sys.msum
  rw [V3.map_snd_sum, hs.par, hs.n]
  apply sum_congr rfl
  intro b hb
  obtain ⟨⟨b1, bn⟩, -⟩ := mem_subtree.1 hb
  rw [hs.Y, ← hw b b1 bn]
  ext <;> simp [V3.map, Inertia.map]

theorem pcom_snd {sε : Sys K[ε]} {q v dq : ℕ → K} (hs : s.Along sε q v dq) (hp : ParOk s.par s.n) (hq : s.At q) {b : ℕ}
    (hb : b < s.n) : (sε.pcom (perturb q dq) b).map snd = s.wcom q v b := by
  have hM := Sys.oM_moves hs hp hq b hb
  have e1 := hM.rot
  have e2 := hM.trans
  have e0 := hM.base
  unfold Sys.pcom Sys.wcom
  rw [hs.Y, M3.mulVec_add, ← M3.skew_mulVec, ← M3.mulVec_mulVec, ← e1, ← e2]
  ext <;> simp [V3.map, M3.map, SE3.actP, Inertia.map] <;> ring

theorem wcom_snd {sε : Sys K[ε]} {q v dq : ℕ → K} (hs : s.Along sε q v dq) (hp : ParOk s.par s.n) (hq : s.At q)
    (a : ℕ → K) {b : ℕ} (hb : b < s.n) : (sε.wcom (perturb q dq) (perturb v a) b).map snd = s.ucom q v a b := by
  have hM := Sys.oM_moves hs hp hq b hb
  have e1 := hM.rot
  have e0 := hM.base
  have v0 := Sys.V_fst hs hp hq v a b hb
  have v1 := Sys.V_snd hs hp hq a b hb
  unfold Sys.wcom Sys.ucom
  rw [M3.mulVec_add (s.oM q b).rot, ← M3.skew_mulVec (s.V q v b).ang ((s.V q v b).lin + _), ← M3.mulVec_mulVec, ← e1, ← v0, ← v1, ← e0,
    hs.Y]
  ext <;> simp [V3.map, M3.map, SE3.map, Motion.map, Inertia.map] <;> ring

/-- the velocity of the centre of mass is the time derivative of its position along `q̇ = v` -/
theorem C19_velocity_derivative (hp : ParOk s.par s.n) (d : Data K) {q v dq : ℕ → K} (hq : s.At q)
    {sε : Sys K[ε]} (hs : s.Along sε q v dq) (sub : Bool) (hm : s.subMass 0 ≠ 0) :
    s.subMass 0 • (centerOfMassV s d q v sub).vcom 0 = (sε.msum (sε.pcom (perturb q dq)) 0).map snd := by
  rw [(C19_velocity hp d hq v sub).2.1, msum_snd hs 0 (fun b _ hb => pcom_snd hs hp hq hb)]
  unfold Sys.comVel
  rw [smul_smul, mul_inv_cancel₀ hm, one_smul]

/-- the acceleration of the centre of mass is the time derivative of its velocity along `q̇ = v`, `v̇ = a` -/
theorem C19_acceleration_derivative (hp : ParOk s.par s.n) (d : Data K) {q v dq : ℕ → K} (hq : s.At q)
    {sε : Sys K[ε]} (hs : s.Along sε q v dq) (a : ℕ → K) (sub : Bool) (hm : s.subMass 0 ≠ 0) :
    s.subMass 0 • (centerOfMassA s d q v a sub).acom 0
      = (sε.msum (sε.wcom (perturb q dq) (perturb v a)) 0).map snd := by
  rw [(C19_acceleration hp d hq v a sub).2.2.1, msum_snd hs 0 (fun b _ hb => wcom_snd hs hp hq a hb)]
  unfold Sys.comAcc
  rw [smul_smul, mul_inv_cancel₀ hm, one_smul]

/-- `jacobianCenterOfMass`: the Jacobian maps joint velocities to the velocity of the centre of mass; masses, centre of
mass and, on request, centres of mass of the subtrees (in the world frame) are stored -/
theorem C19_jacobian (h : s.Packed) (d d' : Data K) {q : ℕ → K} (hq : s.At q) (v : ℕ → K) (sub sub' : Bool) :
    ∑ r ∈ range s.nv, v r • (jacobianCenterOfMass s d q sub).Jcom r = (centerOfMassV s d' q v sub').vcom 0 ∧
    (jacobianCenterOfMass s d q sub).com 0 = s.comPos q 0 ∧
    (∀ i, i < s.n → (jacobianCenterOfMass s d q sub).mass i = s.subMass i) ∧
    ∀ i, 1 ≤ i → i < s.n → (jacobianCenterOfMass s d q true).com i = s.comPos q i := by
  have o := jacobianCenterOfMass_out h sub (fk0_ok h.par d q)
  have o' := jacobianCenterOfMass_out h true (fk0_ok h.par d q)
  refine ⟨?_, o.com0, o.mass, fun i h1 hi => ?_⟩
  · rw [(C19_velocity h.par d' hq v sub').2.1]
    exact com_mul h hq v o.Jcom
  · exact (o'.com i h1 hi).trans (by rw [if_pos rfl]; rfl)

/-- `jacobianSubtreeCenterOfMass` into a zero matrix: it succeeds when the mass of the subtree is positive, and maps
joint velocities to the velocity of the centre of mass of the subtree -/
theorem C19_subtree_jacobian [LinearOrder K] (h : s.Packed) (hc : crbaCheck s.par s.n = true) (d : Data K) {q : ℕ → K}
    (hq : s.At q) (v : ℕ → K) {root : ℕ} (hr : root < s.n) {l : List ℕ} (hl : IsSubtree s root l)
    (hm : 0 < s.subMass root) :
    ∃ x, jacobianSubtreeCenterOfMass s d q l root (fun _ => 0) = some x ∧
      ∑ r ∈ range s.nv, v r • x.2 r = s.comVel q v root := by
  obtain ⟨x, e, hx, -⟩ := jacobianSubtree_out h ((crbaCheck_iff h.par).1 hc) (fk0_ok h.par d q) hr hl hm
  exact ⟨x, e, com_mul h hq v hx⟩

/-- `getJacobianSubtreeCenterOfMass` after `jacobianCenterOfMass(.., computeSubtreeComs = true)` gives that matrix too -/
theorem C19_get_subtree_jacobian (h : s.Packed) (hf : s.Full) (hc : crbaCheck s.par s.n = true) (d : Data K) {q : ℕ → K}
    (hq : s.At q) (v : ℕ → K) {root : ℕ} (hr : root < s.n) (hm : s.subMass root ≠ 0) (h0 : s.subMass 0 ≠ 0) :
    ∑ r ∈ range s.nv, v r • getJacobianSubtreeCenterOfMass s (jacobianCenterOfMass s d q true) root (fun _ => 0) r
      = s.comVel q v root :=
  com_mul h hq v (getJacobianSubtree_out h hf ((crbaCheck_iff h.par).1 hc)
    (jacobianCenterOfMass_out h true (fk0_ok h.par d q)) hr hm h0)

section crba
variable {K : Type*} [Field K] [LinearOrder K] [IsStrictOrderedRing K] [HasEps K] {s : Sys K}

theorem oI_lin (q : ℕ → K) (b : ℕ) (m : Motion K) :
    ((s.oI q b).mulMF m).lin = (s.Y b).mass • pointVel (s.pcom q b) m := by
  unfold Sys.oI
  rw [Inertia.matrix_mulMF, pointVel_apply]
  unfold Sys.pcom
  ext <;> simp [Inertia.mul, Inertia.act, SE3.actP] <;> ring

theorem M6.sum_mulMF_lin {ι : Type*} (t : Finset ι) (A : ι → M6 K) (m : Motion K) :
    ((∑ i ∈ t, A i).mulMF m).lin = ∑ i ∈ t, ((A i).mulMF m).lin := by
  classical
  rw [M6.sum_mulMF]
  induction t using Finset.induction_on with
  | empty => rw [sum_empty, sum_empty]; rfl
  | insert a t ha ih => rw [sum_insert ha, sum_insert ha, ← ih]; rfl

theorem oYm_lin (q : ℕ → K) (i : ℕ) (m : Motion K) : ((s.oYm q i).mulMF m).lin
    = ∑ b ∈ subtree s.par s.n i, (s.Y b).mass • pointVel (s.pcom q b) m := by
  unfold Sys.oYm
  rw [M6.sum_mulMF_lin]
  exact sum_congr rfl fun b _ => oI_lin q b m

/-- an inertia with the matrix of the subtree of `i` has its mass and its centre of mass -/
theorem inertia_of_matrix {q : ℕ → K} {i : ℕ} {Y : Inertia K} (h : Y.matrix = s.oYm q i) :
    Y.mass = s.subMass i ∧ Y.mass • Y.lever = s.msum (s.pcom q) i := by
  have key : ∀ m : Motion K, (Y.mul m).lin
      = s.subMass i • m.lin - (s.msum (s.pcom q) i).cross m.ang := by
    intro m
    rw [← Inertia.matrix_mulMF, h, oYm_lin]
    unfold Sys.subMass Sys.msum
    generalize subtree s.par s.n i = t
    classical
    induction t using Finset.induction_on with
    | empty => ext <;> simp
    | insert b t hb ih =>
      rw [sum_insert hb, sum_insert hb, sum_insert hb, ih, pointVel_apply]
      ext <;> simp <;> ring
  have k1 := key ⟨⟨1, 0, 0⟩, 0⟩
  have k2 := key ⟨0, ⟨1, 0, 0⟩⟩
  have k3 := key ⟨0, ⟨0, 1, 0⟩⟩
  simp only [V3.ext_iff, Inertia.mul, V3.add_x, V3.add_y, V3.add_z, V3.sub_x, V3.sub_y, V3.sub_z, V3.smul_x, V3.smul_y,
    V3.smul_z, V3.cross, V3.zero_x, V3.zero_y, V3.zero_z] at k1 k2 k3
  refine ⟨by linarith [k1.1], ?_⟩
  ext <;> simp <;> linarith [k2.2.1, k2.2.2, k3.1, k3.2.2]

/-- `getJacobianComFromCrba` after `crba` (world convention): mass, centre of mass and its Jacobian -/
theorem C19_jacobian_from_crba (h : s.Packed) (hc : crbaCheck s.par s.n = true) (hM : s.MassesOk) (d d' : Data K)
    {q : ℕ → K} (hq : s.At q) (v : ℕ → K) (sub : Bool) (hm : s.subMass 0 ≠ 0) :
    ∑ r ∈ range s.nv, v r • (getJacobianComFromCrba (crbaWorld s d q)).Jcom r = (centerOfMassV s d' q v sub).vcom 0 ∧
    (getJacobianComFromCrba (crbaWorld s d q)).mass 0 = s.subMass 0 ∧
    (getJacobianComFromCrba (crbaWorld s d q)).com 0 = s.comPos q 0 := by
  have hp := h.par
  have hcm := (crbaCheck_iff hp).1 hc
  have hB := crbaWorld_cwb h hcm hM d q
  have hY0 : ((crbaWorld s d q).oYcrb 0).matrix = s.oYm q 0 := by
    have e : (crbaWorld s d q).oYcrb = (bwd (crbaWorldBwd s) s.n (fwd (crbaWorldFwd s q) s.n
      { d with oYcrb := upd d.oYcrb 0 0 })).oYcrb := rfl
    rw [e, hB.acc0, filter_true_of_mem (fun c hc => (mem_kids.1 hc).1.1)]
    have : ∀ c ∈ kids s.par s.n 0, ((bwd (crbaWorldBwd s) s.n (fwd (crbaWorldFwd s q) s.n
      { d with oYcrb := upd d.oYcrb 0 0 })).oYcrb c).matrix = s.oYm q c := by
      intro c hc
      obtain ⟨⟨c1, cn⟩, -⟩ := mem_kids.1 hc
      exact hB.acc.eq_acc hp (Sys.oYm_acc hp q) c c1 cn (by omega)
    rw [sum_congr rfl this]
    unfold Sys.oYm
    rw [subtree_root hp]
    exact sum_kids_zero hp (s.oI q)
  obtain ⟨m1, m2⟩ := inertia_of_matrix hY0
  have hmass : (getJacobianComFromCrba (crbaWorld s d q)).mass 0 = s.subMass 0 := by
    refine (upd_self (crbaWorld s d q).mass 0 _).trans m1
  refine ⟨?_, hmass, ?_⟩
  · rw [(C19_velocity hp d' hq v sub).2.1]
    apply com_mul h hq v
    intro a a1 ha k hk
    change ((crbaWorld s d q).Ag (s.iv a + k)).lin.divS (upd (crbaWorld s d q).mass 0 ((crbaWorld s d q).oYcrb 0).mass 0) = _
    have e := hB.Ag a a1 a1 ha k hk
    have e2 : ((crbaWorld s d q).Ag (s.iv a + k)).lin = ((bwd (crbaWorldBwd s) s.n (fwd (crbaWorldFwd s q) s.n
      { d with oYcrb := upd d.oYcrb 0 0 })).Ag (s.iv a + k)).lin := by
      simp only [crbaWorld, addArmature]
      split <;> rfl
    rw [e2, e, upd_self, m1, oYm_lin, V3.divS_eq, comCol_below hp q a1 ha (anc_root hp a ha), msum_pointVel]
  · change upd (crbaWorld s d q).com 0 ((crbaWorld s d q).oYcrb 0).lever 0 = _
    rw [upd_self]
    unfold Sys.comPos
    rw [← m2, m1, smul_smul, inv_mul_cancel₀ hm, one_smul]

/-- and `crba` (world convention) itself stores the total mass and the centre of mass -/
theorem C19_crba_com (h : s.Packed) (hc : crbaCheck s.par s.n = true) (hM : s.MassesOk) (d : Data K)
    {q : ℕ → K} (hq : s.At q) (hm : s.subMass 0 ≠ 0) :
    (crbaWorld s d q).mass 0 = s.subMass 0 ∧ (crbaWorld s d q).com 0 = s.comPos q 0 := by
  obtain ⟨-, a, b⟩ := C19_jacobian_from_crba h hc hM d d hq q true hm
  exact ⟨a, b⟩
end crba

set_option maxRecDepth 100000 in
/-- `getComFromCrba` after `crba` (world convention) does not return the centre of mass: it moves by `liMi[1]` the
lever of `oYcrb[1]`, which is already in the world frame -/
theorem C19_getComFromCrba_counterexample :
    Ex.sysA.Packed ∧ crbaCheck Ex.sysA.par Ex.sysA.n = true ∧ Ex.sysA.MassesOk ∧ Ex.sysA.At Ex.qA ∧
    (getComFromCrba (crbaWorld Ex.sysA Data.zero Ex.qA)).com 0
      ≠ (centerOfMass Ex.sysA Data.zero Ex.qA true).com 0 ∧
    -- neither is it the centre of mass of the subtree of joint 1, nor when joint 1 is the only child of the universe
    (Ex.sysA.oM Ex.qA 1).actP ((centerOfMass Ex.sysA Data.zero Ex.qA true).com 1)
      ≠ (getComFromCrba (crbaWorld Ex.sysA Data.zero Ex.qA)).com 0 :=
  ⟨Ex.sysA_packed, by decide, Ex.sysA_masses, Ex.sysA_at, by decide +kernel, by decide +kernel⟩

set_option maxRecDepth 100000 in
/-- `jacobianSubtreeCenterOfMass` spoils quantities it does not own: after it, the mass stored for the parent of the root
of the subtree is no longer the mass of a subtree; with root `0`, `com[0]` is not divided by the mass; and the whole-body
Jacobian stored before is lost -/
theorem C19_subtree_side_effects_counterexample :
    let d := jacobianCenterOfMass Ex.sysA Data.zero Ex.qA true
    IsSubtree Ex.sysA 3 [3, 4] ∧ IsSubtree Ex.sysA 0 [1, 2, 3, 4] ∧
    (jacobianSubtreeCenterOfMass Ex.sysA d Ex.qA [3, 4] 3 (fun _ => 0)).map (fun x => x.1.mass 1) ≠ some (d.mass 1) ∧
    (jacobianSubtreeCenterOfMass Ex.sysA d Ex.qA [3, 4] 3 (fun _ => 0)).map (fun x => x.1.Jcom 0) ≠ some (d.Jcom 0) ∧
    (jacobianSubtreeCenterOfMass Ex.sysA d Ex.qA [1, 2, 3, 4] 0 (fun _ => 0)).map (fun x => x.1.com 0)
      ≠ some (d.com 0) := by
  intro d
  refine ⟨⟨by decide, fun j => ?_⟩, ⟨by decide, fun j => ?_⟩, by decide +kernel, by decide +kernel, by decide +kernel⟩
  · constructor
    · intro hj
      simp only [List.mem_cons, List.not_mem_nil, or_false] at hj
      rcases hj with rfl | rfl
      · exact ⟨by decide, anc_refl Ex.sysA_par (by decide)⟩
      · refine ⟨by decide, (anc_step (by decide) (by decide)).2 (Or.inr ?_)⟩
        exact anc_refl Ex.sysA_par (i := 3) (by decide)
    · rintro ⟨⟨h1, hj⟩, ha⟩
      have := anc_le Ex.sysA_par j hj ha
      change j < 5 at hj
      interval_cases j <;> simp
  · constructor
    · intro hj
      have hj' : 1 ≤ j ∧ j < 5 := by
        simp only [List.mem_cons, List.not_mem_nil, or_false] at hj; omega
      exact ⟨hj', anc_root Ex.sysA_par j hj'.2⟩
    · rintro ⟨⟨h1, hj⟩, -⟩
      change j < 5 at hj
      interval_cases j <;> simp

/-- the hypotheses of the theorems above are met -/
example : Ex.sysA.Packed ∧ Ex.sysA.Full ∧ crbaCheck Ex.sysA.par Ex.sysA.n = true ∧ Ex.sysA.MassesOk ∧
    Ex.sysA.At Ex.qA ∧ Ex.sysA.Along Ex.sysAε Ex.qA Ex.vA Ex.dqA ∧ 0 < Ex.sysA.subMass 0 ∧
    IsSubtree Ex.sysA 3 [3, 4] ∧ 0 < Ex.sysA.subMass 3 := by
  have key : ∀ i, i < 5 → 0 < Ex.sysA.subMass i := by
    intro i hi
    rw [← C19_subtreeMasses Ex.sysA_par Data.zero hi]
    interval_cases i <;> decide +kernel
  exact ⟨Ex.sysA_packed, Ex.sysA_full, by decide, Ex.sysA_masses, Ex.sysA_at, Ex.sysA_along, key 0 (by decide),
    C19_subtree_side_effects_counterexample.1, key 3 (by decide)⟩

end Pin
