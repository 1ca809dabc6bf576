import Verif.Joint.Composite
import Verif.Algo.World

/-!
# A model along a trajectory

`Sys.Along s sε q v dq`: `sε` is the same model with its constants seen as dual numbers, each of its joints
is the same joint code over dual numbers, and `dq` is the derivative of the configuration `q` when the joint
velocity is `v` (joint by joint: `Joint.Kinematic`). The `ε`-part of a quantity computed on `sε` at
`q + ε dq` is its time derivative.
-/

namespace Pin
open Finset DualNumber TrivSqZeroExt
universe u

def Sym3.map {K L : Type*} (f : K → L) (a : Sym3 K) : Sym3 L :=
  ⟨f a.xx, f a.xy, f a.yy, f a.xz, f a.yz, f a.zz⟩
def Inertia.map {K L : Type*} (f : K → L) (Y : Inertia K) : Inertia L :=
  ⟨f Y.mass, Y.lever.map f, Y.rotI.map f⟩
def Force.map {K L : Type*} (f : K → L) (a : Force K) : Force L := ⟨a.lin.map f, a.ang.map f⟩

variable {K : Type u} [CommRing K]

/-- see the file header -/
structure Sys.Along (s : Sys K) (sε : Sys K[ε]) (q v dq : ℕ → K) : Prop where
  n : sε.n = s.n
  par : sε.par = s.par
  pl : ∀ i, sε.pl i = (s.pl i).map inl
  Y : ∀ i, sε.Y i = (s.Y i).map inl
  iq : sε.iq = s.iq
  iv : sε.iv = s.iv
  nv : sε.nv = s.nv
  jnv : ∀ i, sε.jnv i = s.jnv i
  arm : ∀ r, sε.arm r = inl (s.arm r)
  grav : sε.grav = s.grav.map inl
  jt : ∀ i, 1 ≤ i → i < s.n →
    (s.jt i).Kinematic (sε.jt i) (s.qs q i) (s.vs v i) (s.qs dq i)

namespace Sys
variable {s : Sys K} {sε : Sys K[ε]} {q v dq : ℕ → K}

theorem qs_perturb (h : s.Along sε q v dq) (i : ℕ) :
    sε.qs (perturb q dq) i = perturb (s.qs q i) (s.qs dq i) := by
  unfold qs; rw [h.iq]; rfl

theorem X_moves (h : s.Along sε q v dq) (hq : s.At q) {i : ℕ} (h1 : 1 ≤ i) (hi : i < s.n) :
    (sε.X (perturb q dq) i).Moves (s.X q i) (s.jvel q v i) := by
  unfold X
  rw [qs_perturb h, h.pl]
  have := SE3.Moves.const.mul (A := s.pl i) (h.jt i h1 hi).moves (hq.jt i h1 hi).valid
  rw [SE3.actInv_zero, add_zero] at this
  exact this

/-- the placements move with the body velocities -/
theorem oM_moves (h : s.Along sε q v dq) (hp : ParOk s.par s.n) (hq : s.At q) : ∀ i, i < s.n →
    (sε.oM (perturb q dq) i).Moves (s.oM q i) (s.V q v i) := by
  intro i hi; refine joint_ind s hp ?_ ?_ i hi <;> clear hi i
  · rw [oM_zero, oM_zero, V_zero]
    refine ⟨?_, ?_, ?_⟩ <;> ext <;> simp [SE3.map, M3.map, M3.skew]
  · intro i h1 hi ih
    have hpi := hp.2 i h1 hi
    have hpi' : sε.par i < i := by rw [h.par]; exact hpi
    rw [s.oM_step h1 hpi, sε.oM_step h1 hpi', s.V_step h1 hpi, h.par]
    exact ih.mul (X_moves h hq h1 hi) (s.X_valid hq h1 hi)

theorem map_fst_add (a b : Motion K[ε]) : (a + b).map fst = a.map fst + b.map fst := by
  ext <;> simp [Motion.map, V3.map]
theorem map_snd_add (a b : Motion K[ε]) : (a + b).map snd = a.map snd + b.map snd := by
  ext <;> simp [Motion.map, V3.map]
theorem map_fst_smul (c : K[ε]) (b : Motion K[ε]) : (c • b).map fst = c.fst • b.map fst := by
  ext <;> simp [Motion.map, V3.map]
theorem map_snd_smul (c : K[ε]) (b : Motion K[ε]) : (c • b).map snd = c.fst • b.map snd + c.snd • b.map fst := by
  ext <;> simp [Motion.map, V3.map] <;> ring
theorem map_fst_sum {ι : Type*} (t : Finset ι) (g : ι → Motion K[ε]) :
    (∑ i ∈ t, g i).map fst = ∑ i ∈ t, (g i).map fst := by
  classical
  induction t using Finset.induction_on with
  | empty => rw [sum_empty, sum_empty]; ext <;> simp [Motion.map, V3.map]
  | insert a t ha ih => rw [sum_insert ha, sum_insert ha, map_fst_add, ih]
theorem map_snd_sum {ι : Type*} (t : Finset ι) (g : ι → Motion K[ε]) :
    (∑ i ∈ t, g i).map snd = ∑ i ∈ t, (g i).map snd := by
  classical
  induction t using Finset.induction_on with
  | empty => rw [sum_empty, sum_empty]; ext <;> simp [Motion.map, V3.map]
  | insert a t ha ih => rw [sum_insert ha, sum_insert ha, map_snd_add, ih]

theorem S_perturb (h : s.Along sε q v dq) {i k : ℕ} (h1 : 1 ≤ i) (hi : i < s.n) (hk : k < s.jnv i) :
    (sε.S (perturb q dq) i k).map fst = s.S q i k := by
  unfold S; rw [qs_perturb h]; exact (h.jt i h1 hi).base k hk

theorem jvel_fst (h : s.Along sε q v dq) (w b : ℕ → K) {i : ℕ} (h1 : 1 ≤ i) (hi : i < s.n) :
    (sε.jvel (perturb q dq) (perturb w b) i).map fst = s.jvel q w i := by
  unfold jvel comb
  rw [map_fst_sum, h.jnv]
  apply sum_congr rfl
  intro k hk
  rw [map_fst_smul, S_perturb h h1 hi (mem_range.1 hk)]
  unfold vs seg
  rw [fst_perturb, h.iv]

/-- along the trajectory the joint motion has derivative `S a + c` -/
theorem jvel_snd (h : s.Along sε q v dq) (b : ℕ → K) {i : ℕ} (h1 : 1 ≤ i) (hi : i < s.n) :
    (sε.jvel (perturb q dq) (perturb v b) i).map snd = s.jvel q b i + s.cb q v i := by
  have e := (h.jt i h1 hi).bias
  unfold cb
  rw [← e]
  unfold jvel comb
  rw [map_snd_sum, h.jnv, add_comm]
  change _ = (∑ k ∈ range (s.jnv i), _) + _
  rw [← sum_add_distrib]
  apply sum_congr rfl
  intro k hk
  rw [map_snd_smul, S_perturb h h1 hi (mem_range.1 hk)]
  unfold vs seg S
  rw [fst_perturb, snd_perturb, h.iv, qs_perturb h]

theorem V_fst (h : s.Along sε q v dq) (hp : ParOk s.par s.n) (hq : s.At q) (w b : ℕ → K) : ∀ i, i < s.n →
    (sε.V (perturb q dq) (perturb w b) i).map fst = s.V q w i := by
  intro i hi; refine joint_ind s hp ?_ ?_ i hi <;> clear hi i
  · rw [V_zero, V_zero]; ext <;> simp [Motion.map, V3.map]
  · intro i h1 hi ih
    have hpi := hp.2 i h1 hi
    rw [s.V_step h1 hpi, sε.V_step h1 (by rw [h.par]; exact hpi), map_fst_add, jvel_fst h w b h1 hi,
      SE3.map_fst_actInv (X_moves h hq h1 hi).base, h.par, ih]

/-- the spatial acceleration is the derivative of the spatial velocity, in the body frame -/
theorem V_snd (h : s.Along sε q v dq) (hp : ParOk s.par s.n) (hq : s.At q) (b : ℕ → K) : ∀ i, i < s.n →
    (sε.V (perturb q dq) (perturb v b) i).map snd = s.A 0 q v b i := by
  intro i hi; refine joint_ind s hp ?_ ?_ i hi <;> clear hi i
  · rw [V_zero, A_zero]; ext <;> simp [Motion.map, V3.map]
  · intro i h1 hi ih
    have hpi := hp.2 i h1 hi
    rw [s.A_step h1 hpi, sε.V_step h1 (by rw [h.par]; exact hpi), map_snd_add, jvel_snd h b h1 hi,
      (X_moves h hq h1 hi).snd_actInv (s.X_valid hq h1 hi), h.par, ih, V_fst h hp hq v b _ (by omega),
      s.V_step h1 hpi]
    set a := s.jvel q v i
    set c := (s.X q i).actInv (s.V q v (s.par i))
    have e : (a + c).cross a = - a.cross c := by
      ext <;> simp [Motion.cross] <;> ring
    rw [e]; abel


/-! ## energies -/

/-- potential energy: `-Σ_i m_i (c_i · g)`, `c_i` the centre of mass of body `i` in the world frame -/
def potential {K : Type*} [CommRing K] (s : Sys K) (q : ℕ → K) : K :=
  - ∑ i ∈ Ico 1 s.n, (s.Y i).mass * ((s.oM q i).actP (s.Y i).lever).dot s.grav.lin

theorem fst_sum' {ι : Type*} (t : Finset ι) (g : ι → K[ε]) : (∑ i ∈ t, g i).fst = ∑ i ∈ t, (g i).fst := by
  classical
  induction t using Finset.induction_on with
  | empty => simp
  | insert a t ha ih => rw [sum_insert ha, sum_insert ha, fst_add, ih]
theorem snd_sum' {ι : Type*} (t : Finset ι) (g : ι → K[ε]) : (∑ i ∈ t, g i).snd = ∑ i ∈ t, (g i).snd := by
  classical
  induction t using Finset.induction_on with
  | empty => simp
  | insert a t ha ih => rw [sum_insert ha, sum_insert ha, snd_add, ih]

theorem snd_dot (a b : V3 K[ε]) : (a.dot b).snd
    = (a.map fst).dot (b.map snd) + (a.map snd).dot (b.map fst) := by
  simp [V3.dot, V3.map]; ring
theorem fst_dot (a b : V3 K[ε]) : (a.dot b).fst = (a.map fst).dot (b.map fst) := by
  simp [V3.dot, V3.map]

theorem potential_snd (h : s.Along sε q v dq) (hp : ParOk s.par s.n) (hq : s.At q) (hg : s.grav.ang = 0) :
    (sε.potential (perturb q dq)).snd
      = ∑ i ∈ Ico 1 s.n, (s.V q v i).dot ((s.Y i).mul ((s.oM q i).actInv (-s.grav))) := by
  unfold potential
  rw [snd_neg, snd_sum', h.n, ← sum_neg_distrib]
  apply sum_congr rfl
  intro i hi
  rw [mem_Ico] at hi
  have hm := oM_moves h hp hq i hi.2
  have hv := s.oM_valid hp hq i hi.2
  have r0 : ((sε.oM (perturb q dq) i).rot).map fst = (s.oM q i).rot := congrArg SE3.rot hm.base
  have eP : ((sε.oM (perturb q dq) i).actP ((s.Y i).lever.map inl)).map snd
      = (s.oM q i).rot.mulVec ((s.V q v i).lin + (s.V q v i).ang.cross (s.Y i).lever) := by
    unfold SE3.actP
    rw [V3.map_snd_add, M3.map_snd_mulVec, r0, hm.rot, hm.trans, M3.mulVec_add, M3.mulVec_mulVec, M3.skew_mulVec]
    have e1 : ((s.Y i).lever.map (inl : K → K[ε])).map snd = 0 := by ext <;> simp [V3.map]
    have e2 : ((s.Y i).lever.map (inl : K → K[ε])).map fst = (s.Y i).lever := by ext <;> simp [V3.map]
    rw [e1, e2]; simp [add_comm]
  have eg : ((s.grav.map inl : Motion K[ε]).lin).map snd = 0 := by ext <;> simp [V3.map, Motion.map]
  have eg' : ((s.grav.map inl : Motion K[ε]).lin).map fst = s.grav.lin := by ext <;> simp [V3.map, Motion.map]
  rw [h.Y, h.grav]
  change -((inl (s.Y i).mass : K[ε]) * ((sε.oM (perturb q dq) i).actP ((s.Y i).lever.map inl)).dot _).snd = _
  have hs : ∀ (c : K) (x : K[ε]), ((inl c : K[ε]) * x).snd = c * x.snd := by intro c x; simp
  rw [hs, snd_dot, eg, eg', eP]
  have e3 : (s.oM q i).actInv (-s.grav) = ⟨(s.oM q i).rot.tr.mulVec (-s.grav.lin), 0⟩ := by
    have : ∀ t : V3 K, t.cross 0 = 0 := by intro t; ext <;> simp
    ext1
    · simp [SE3.actInv, hg, this]
    · simp [SE3.actInv, hg]
  have e4 : ∀ u : V3 K, ((s.oM q i).rot.mulVec u).dot s.grav.lin = u.dot ((s.oM q i).rot.tr.mulVec s.grav.lin) := by
    intro u; simp [V3.dot, M3.mulVec, M3.tr]; ring
  rw [e4, e3, M3.mulVec_neg]
  generalize (s.oM q i).rot.tr.mulVec s.grav.lin = g
  simp [Motion.dot, Inertia.mul, V3.dot, Sym3.mulVec]
  ring

end Sys

theorem Inertia.snd_mul (Y : Inertia K) (m : Motion K[ε]) :
    ((Y.map inl : Inertia K[ε]).mul m).map snd = Y.mul (m.map snd) := by
  ext <;> simp [Inertia.map, Force.map, Motion.map, Inertia.mul, V3.map, Sym3.map, Sym3.mulVec] <;> ring
theorem Inertia.fst_mul (Y : Inertia K) (m : Motion K[ε]) :
    ((Y.map inl : Inertia K[ε]).mul m).map fst = Y.mul (m.map fst) := by
  ext <;> simp [Inertia.map, Force.map, Motion.map, Inertia.mul, V3.map, Sym3.map, Sym3.mulVec]
theorem Motion.snd_dot (m : Motion K[ε]) (f : Force K[ε]) :
    (m.dot f).snd = (m.map fst).dot (f.map snd) + (m.map snd).dot (f.map fst) := by
  simp [Motion.dot, Motion.map, Force.map, V3.map, V3.dot]; ring
theorem Motion.dot_crossF_self (V : Motion K) (f : Force K) : V.dot (V.crossF f) = 0 := by
  simp [Motion.dot, Motion.crossF, V3.dot]; ring

namespace Sys
variable {s : Sys K} {sε : Sys K[ε]} {q v dq : ℕ → K}

/-- derivative of `vᵀ M(q) v` along the trajectory -/
theorem massForm_snd (h : s.Along sε q v dq) (hp : ParOk s.par s.n) (hq : s.At q) (a : ℕ → K) :
    (sε.massForm (perturb q dq) (perturb v a) (perturb v a)).snd
      = 2 * ((∑ i ∈ Ico 1 s.n, (s.V q v i).dot ((s.Y i).mul (s.A 0 q v a i)))
        + s.dotv v (fun r => s.arm r * a r)) := by
  unfold massForm
  rw [snd_add, snd_sum', h.n, _root_.mul_add, mul_sum]
  congr 1
  · apply sum_congr rfl
    intro i hi
    rw [mem_Ico] at hi
    rw [h.Y, Motion.snd_dot, Inertia.snd_mul, Inertia.fst_mul, V_fst h hp hq _ _ i hi.2, V_snd h hp hq _ i hi.2,
      Inertia.dot_mul_comm (s.Y i) (s.A 0 q v a i)]
    ring
  · unfold dotv
    rw [snd_sum', h.nv, mul_sum]
    apply sum_congr rfl
    intro r _
    simp only [h.arm]
    simp [perturb]; ring

end Sys
end Pin
