import Verif.Algo.VariationLemmas
import Verif.Algo.Coriolis
import Verif.Algo.Passes

/-!
# First-order variation of the inverse dynamics

`(q, v, a)` moves in the direction `(w, δv, δa)`, the external forces are constant in the joint frames. `Sys.tau_var`
gives the variation of the torque as a sum on pairs of joints.
-/

set_option linter.unusedSectionVars false

namespace Pin
open Finset DualNumber TrivSqZeroExt
universe u
variable {K : Type u} [Field K]

theorem Force.snd_add (a b : Force K[ε]) : (a + b).map snd = a.map snd + b.map snd := by
  ext <;> simp [Force.map, V3.map]
theorem Force.snd_sub (a b : Force K[ε]) : (a - b).map snd = a.map snd - b.map snd := by
  ext <;> simp [Force.map, V3.map]
theorem Force.fst_add (a b : Force K[ε]) : (a + b).map fst = a.map fst + b.map fst := by
  ext <;> simp [Force.map, V3.map]
theorem Force.fst_sub (a b : Force K[ε]) : (a - b).map fst = a.map fst - b.map fst := by
  ext <;> simp [Force.map, V3.map]
theorem Force.snd_inl (a : Force K) : (a.map (inl : K → K[ε])).map snd = 0 := by
  ext <;> simp [Force.map, V3.map]
theorem Force.fst_inl (a : Force K) : (a.map (inl : K → K[ε])).map fst = a := by
  ext <;> simp [Force.map, V3.map]
theorem Motion.snd_crossF (a : Motion K[ε]) (b : Force K[ε]) :
    (a.crossF b).map snd = (a.map snd).crossF (b.map fst) + (a.map fst).crossF (b.map snd) := by
  ext <;> simp [Motion.crossF, Motion.map, Force.map, V3.map] <;> ring
theorem Motion.fst_crossF (a : Motion K[ε]) (b : Force K[ε]) :
    (a.crossF b).map fst = (a.map fst).crossF (b.map fst) := by
  ext <;> simp [Motion.crossF, Motion.map, Force.map, V3.map]
theorem Motion.cross_dot (a b : Motion K) (f : Force K) : (a.cross b).dot f = a.dot (b.crossF f) := by
  simp [Motion.dot, Motion.crossF, Motion.cross, V3.dot]; ring
theorem addForceCross_mul (f : Force K) (m : M6 K) (x : Motion K) :
    (addForceCross f m).mulMF x = m.mulMF x + x.crossF f := by
  ext <;> simp [addForceCross, M6.mulMF, M3.skew, Motion.crossF] <;> ring

theorem M6.mulMF_fsum {ι : Type*} (A : M6 K) (t : Finset ι) (g : ι → Motion K) :
    A.mulMF (∑ i ∈ t, g i) = ∑ i ∈ t, A.mulMF (g i) := by
  classical
  induction t using Finset.induction_on with
  | empty => simp
  | insert a t ha ih => rw [sum_insert ha, sum_insert ha, M6.mulMF_add, ih]

namespace Sys
variable (s : Sys K)

/-- `B` of body `b` in `computeRNEADerivatives` -/
def dB (q v : ℕ → K) (b : ℕ) : M6 K :=
  addForceCross (((s.Y b).act (s.oM q b)).mul (s.oV q v b)) (((s.Y b).act (s.oM q b)).variation (s.oV q v b))

variable {s}

theorem dB_mulMF (q v : ℕ → K) (b : ℕ) (x : Motion K) :
    (s.dB q v b).mulMF x = (s.oV q v b).crossF ((s.oI q b).mulMF x) - (s.oI q b).mulMF ((s.oV q v b).cross x)
      + x.crossF ((s.oI q b).mulMF (s.oV q v b)) := by
  unfold dB oI
  rw [addForceCross_mul, Inertia.variation_mulMF, Inertia.matrix_mulMF, Inertia.matrix_mulMF, Inertia.matrix_mulMF]

/-- world acceleration seen with gravity -/
theorem wA_base (hp : ParOk s.par s.n) {q : ℕ → K} (hq : s.At q) (a0 : Motion K) (v a : ℕ → K) {i : ℕ} (hi : i < s.n) :
    s.wA a0 q v a i = s.wA 0 q v a i + a0 := by
  unfold wA
  rw [A_base hp a0 q v a i hi, base_eq hp hq a0 i hi, SE3.act_add, SE3.act_actInv (s.oM_valid hp hq i hi)]

/-- inertia in the world frame -/
theorem oI_act (hp : ParOk s.par s.n) {q : ℕ → K} (hq : s.At q) {b : ℕ} (hb : b < s.n) (m : Motion K) :
    (s.oI q b).mulMF ((s.oM q b).act m) = (s.oM q b).actF ((s.Y b).mul m) := by
  unfold oI
  rw [Inertia.matrix_mulMF, Inertia.act_mul (s.oM_valid hp hq b hb), SE3.actInv_act (s.oM_valid hp hq b hb)]

/-- force on body `b` in the world frame, external force subtracted -/
def oF (s : Sys K) (a0 : Motion K) (q v a : ℕ → K) (fext : ℕ → Force K) (b : ℕ) : Force K :=
  (s.oM q b).actF (s.F a0 q v a b - fext b)

theorem oF_eq (hp : ParOk s.par s.n) {q : ℕ → K} (hq : s.At q) (a0 : Motion K) (v a : ℕ → K) (fext : ℕ → Force K)
    {b : ℕ} (hb : b < s.n) : s.oF a0 q v a fext b = (s.oI q b).mulMF (s.wA a0 q v a b)
      + (s.oV q v b).crossF ((s.oI q b).mulMF (s.oV q v b)) - (s.oM q b).actF (fext b) := by
  unfold oF F wA oV
  rw [oI_act hp hq hb, oI_act hp hq hb, SE3.actF_sub, SE3.actF_add, Motion.act_crossF (s.oM_valid hp hq b hb)]

variable {sε : Sys K[ε]} {q w dq : ℕ → K}

/-- variation of the force on a body, in the world frame -/
theorem F_var (h : s.Along sε q w dq) (hc : s.ConstS sε) (hp : ParOk s.par s.n) (hq : s.At q) (a0 : Motion K)
    (v δv a δa : ℕ → K) (b : ℕ) (hb : b < s.n) :
    (s.oM q b).actF ((sε.F (a0.map inl) (perturb q dq) (perturb v δv) (perturb a δa) b).map snd)
      = (s.oI q b).mulMF (s.hA a0 q w v δv a δa b) + (s.dB q v b).mulMF (s.eV q w v δv b) := by
  have hV := V_var h hc hp hq v δv b hb
  have hA := A_var h hc hp hq a0 v δv a δa b hb
  unfold F
  rw [h.Y, Force.snd_add, Motion.snd_crossF, Inertia.snd_mul, Inertia.snd_mul, Inertia.fst_mul,
    V_fst h hp hq _ _ b hb, SE3.actF_add, SE3.actF_add, Motion.act_crossF (s.oM_valid hp hq b hb),
    Motion.act_crossF (s.oM_valid hp hq b hb), ← oI_act hp hq hb, ← oI_act hp hq hb, ← oI_act hp hq hb, hV, hA,
    dB_mulMF, M6.mulMF_sub]
  change _ - _ + ((s.eV q w v δv b).crossF ((s.oI q b).mulMF (s.oV q v b))
    + (s.oV q v b).crossF ((s.oI q b).mulMF (s.eV q w v δv b))) = _
  abel

theorem F_fst (h : s.Along sε q w dq) (hc : s.ConstS sε) (hp : ParOk s.par s.n) (hq : s.At q) (a0 : Motion K)
    (v δv a δa : ℕ → K) (b : ℕ) (hb : b < s.n) :
    (sε.F (a0.map inl) (perturb q dq) (perturb v δv) (perturb a δa) b).map fst = s.F a0 q v a b := by
  unfold F
  rw [h.Y, Force.fst_add, Motion.fst_crossF, Inertia.fst_mul, Inertia.fst_mul, V_fst h hp hq _ _ b hb,
    A_fst h hc hp hq _ _ _ _ _ b hb]

theorem unit_perturb (r : ℕ) : (unit r : ℕ → K[ε]) = perturb (unit r) (fun _ => 0) := by
  funext k
  unfold unit perturb
  by_cases e : k = r <;> simp [e]

/-- the variation of the torque as a sum on the bodies -/
theorem tau_var0 (h : s.Along sε q w dq) (hc : s.ConstS sε) (hk : s.Packed) (hq : s.At q)
    (hqε : sε.At (perturb q dq)) (dε : Data K[ε]) (v δv a δa : ℕ → K) (fext : ℕ → Force K) {r : ℕ} (hr : r < s.nv) :
    ((rneaFext sε dε (perturb q dq) (perturb v δv) (perturb a δa) (fun i => (fext i).map inl)).tau r).snd
      = (∑ b ∈ Ico 1 s.n, ((s.oV q (unit r) b).dot ((s.oI q b).mulMF (s.hA (-s.grav) q w v δv a δa b)
            + (s.dB q v b).mulMF (s.eV q w v δv b))
          + (s.eV q w (unit r) (fun _ => 0) b).dot (s.oF (-s.grav) q v a fext b)))
        + s.arm r * δa r := by
  have hp := hk.par
  have hwf : sε.WF := by
    refine ⟨?_, ?_⟩
    · rw [h.par, h.n]; exact hp
    · intro i h1 hi
      rw [h.iv, h.jnv, h.nv]; exact hk.le_nv h1 (by rw [← h.n]; exact hi)
  have e := rneaFext_power hwf dε hqε (perturb v δv) (perturb a δa) (fun i => (fext i).map inl) (unit r)
  rw [Sys.dotv_unit (s := sε) (by rw [h.nv]; exact hr), Sys.dotv_unit (s := sε) (by rw [h.nv]; exact hr)] at e
  rw [e, TrivSqZeroExt.snd_add, snd_sum', h.n]
  congr 1
  · apply sum_congr rfl
    intro b hb
    obtain ⟨-, hb⟩ := mem_Ico.1 hb
    have hg : (-sε.grav : Motion K[ε]) = (-s.grav).map inl := by
      rw [h.grav]; ext <;> simp [Motion.map, V3.map]
    have hov := s.oM_valid hp hq b hb
    rw [hg, Motion.snd_dot, unit_perturb, V_fst h hp hq _ _ b hb, Force.snd_sub, Force.snd_inl, Force.fst_sub,
      Force.fst_inl, F_fst h hc hp hq _ _ _ _ _ b hb, sub_zero, ← F_var h hc hp hq _ _ _ _ _ b hb]
    unfold oV oF
    rw [SE3.dot_act_actF hov, ← V_var h hc hp hq _ _ b hb, SE3.dot_act_actF hov]
  · rw [h.arm]; simp [perturb]

/-! ## exchange of the sums -/

open Classical in
/-- sums on the bodies below `i` of sums on their supports -/
theorem sum_exchange {M : Type*} [AddCommMonoid M] (hp : ParOk s.par s.n) {i : ℕ} (h1 : 1 ≤ i) (hi : i < s.n)
    (G : ℕ → ℕ → M) :
    ∑ b ∈ subtree s.par s.n i, ∑ j ∈ supp s.par s.n b, G b j
      = ∑ j ∈ Ico 1 s.n, (if anc s.par i j then ∑ b ∈ subtree s.par s.n j, G b j
        else if anc s.par j i then ∑ b ∈ subtree s.par s.n i, G b j else 0) := by
  have e : ∀ b ∈ subtree s.par s.n i, ∑ j ∈ supp s.par s.n b, G b j
      = ∑ j ∈ Ico 1 s.n, if anc s.par j b then G b j else 0 := by
    intro b _
    rw [← sum_filter]; apply sum_congr _ (fun _ _ => rfl)
    ext j; rw [mem_supp, mem_filter, mem_Ico]
  rw [sum_congr rfl e, sum_comm]
  apply sum_congr rfl
  intro j hj
  obtain ⟨j1, hj⟩ := mem_Ico.1 hj
  rw [← sum_filter]
  split
  · rename_i ha
    apply sum_congr _ (fun _ _ => rfl)
    ext b
    rw [mem_filter, mem_subtree, mem_subtree]
    constructor
    · rintro ⟨⟨x, -⟩, y⟩; exact ⟨x, y⟩
    · rintro ⟨x, y⟩; exact ⟨⟨x, anc_trans hp ha b x.2 y⟩, y⟩
  · rename_i ha
    split
    · rename_i hb
      apply sum_congr _ (fun _ _ => rfl)
      ext b
      rw [mem_filter, mem_subtree]
      constructor
      · rintro ⟨x, -⟩; exact x
      · rintro ⟨x, y⟩; exact ⟨⟨x, y⟩, anc_trans hp hb b x.2 y⟩
    · rename_i hb
      rw [filter_eq_empty_iff.2, sum_empty]
      intro b hb' hjb
      rw [mem_subtree] at hb'
      rcases anc_total hp b hb'.1.2 hb'.2 hjb with x | x
      · exact ha x
      · exact hb x

/-! ## columns -/

/-- column of `dVdq` -/
def dVq (s : Sys K) (q v : ℕ → K) (j l : ℕ) : Motion K := (s.oV q v (s.par j)).cross (s.Jc q j l)
/-- column of `dAdq`, with gravity -/
def dAq (s : Sys K) (q v a : ℕ → K) (j l : ℕ) : Motion K :=
  (s.wA (-s.grav) q v a (s.par j)).cross (s.Jc q j l) + (s.oV q v (s.par j)).cross (s.dVq q v j l)
/-- column of `dAdv` -/
def dAv (s : Sys K) (q v : ℕ → K) (j l : ℕ) : Motion K := (s.oV q v j).cross (s.Jc q j l) + s.dVq q v j l

/-- sums on a subtree -/
noncomputable def dBm (s : Sys K) (q v : ℕ → K) (i : ℕ) : M6 K := ∑ b ∈ subtree s.par s.n i, s.dB q v b
noncomputable def oFm (s : Sys K) (q v a : ℕ → K) (fext : ℕ → Force K) (i : ℕ) : Force K :=
  ∑ b ∈ subtree s.par s.n i, s.oF (-s.grav) q v a fext b

/-- derivative of the torque on coordinate `k` of joint `i` in the direction of coordinate `l` of joint `j`: of the
configuration -/
noncomputable def eQ (s : Sys K) (q v a : ℕ → K) (fext : ℕ → Force K) (i k j l : ℕ) : K :=
  open Classical in
  if anc s.par i j then (s.Jc q i k).dot ((s.oYm q j).mulMF (s.dAq q v a j l) + (s.dBm q v j).mulMF (s.dVq q v j l)
      + if i = j then 0 else (s.Jc q j l).crossF (s.oFm q v a fext j))
  else if anc s.par j i then
    (s.Jc q i k).dot ((s.oYm q i).mulMF (s.dAq q v a j l) + (s.dBm q v i).mulMF (s.dVq q v j l))
  else 0
/-- the same for the velocity -/
noncomputable def eD (s : Sys K) (q v : ℕ → K) (i k j l : ℕ) : K :=
  open Classical in
  if anc s.par i j then (s.Jc q i k).dot ((s.oYm q j).mulMF (s.dAv q v j l) + (s.dBm q v j).mulMF (s.Jc q j l))
  else if anc s.par j i then
    (s.Jc q i k).dot ((s.oYm q i).mulMF (s.dAv q v j l) + (s.dBm q v i).mulMF (s.Jc q j l))
  else 0
/-- the same for the acceleration -/
noncomputable def eA (s : Sys K) (q : ℕ → K) (i k j l : ℕ) : K :=
  open Classical in
  if anc s.par i j then (s.Jc q i k).dot ((s.oYm q j).mulMF (s.Jc q j l))
  else if anc s.par j i then (s.Jc q i k).dot ((s.oYm q i).mulMF (s.Jc q j l))
  else 0

theorem oj_sum (q w : ℕ → K) (j : ℕ) : s.oj q w j = ∑ l ∈ range (s.jnv j), w (s.iv j + l) • s.Jc q j l :=
  (comb_Jc q w j).symm

theorem cross_ojsum (x : Motion K) (q w : ℕ → K) (j : ℕ) :
    x.cross (s.oj q w j) = ∑ l ∈ range (s.jnv j), w (s.iv j + l) • x.cross (s.Jc q j l) := by
  rw [oj_sum, show x.cross _ = crossLin x _ from rfl, map_sum]
  apply sum_congr rfl
  intro l _
  rw [map_smul]; rfl

/-- `J · A x` -/
def dotLin (J : Motion K) (A : M6 K) : Motion K →ₗ[K] K where
  toFun x := J.dot (A.mulMF x)
  map_add' x y := by rw [M6.mulMF_add]; simp [Motion.dot, V3.dot]; ring
  map_smul' c x := by rw [M6.mulMF_smul]; simp [Motion.dot, V3.dot]; ring
/-- `J · (x ×* f)` -/
def dotCross (J : Motion K) (f : Force K) : Motion K →ₗ[K] K where
  toFun x := J.dot (x.crossF f)
  map_add' x y := by simp [Motion.dot, V3.dot, Motion.crossF]; ring
  map_smul' c x := by simp [Motion.dot, V3.dot, Motion.crossF]; ring
/-- `J · f` -/
def dotF (J : Motion K) : Force K →ₗ[K] K where
  toFun f := J.dot f
  map_add' x y := by simp [Motion.dot, V3.dot]; ring
  map_smul' c x := by simp [Motion.dot, V3.dot]; ring
/-- `x ×* f` in `f` -/
def crossFLin (x : Motion K) : Force K →ₗ[K] Force K where
  toFun f := x.crossF f
  map_add' f g := by ext <;> simp [Motion.crossF] <;> ring
  map_smul' c f := by ext <;> simp [Motion.crossF] <;> ring

/-- what joint `j` adds to the variation of the acceleration, and of the velocity -/
def hT (s : Sys K) (q w v δv a δa : ℕ → K) (j : ℕ) : Motion K :=
  ((s.wA (-s.grav) q v a (s.par j)).cross (s.oj q w j)
      + (s.oV q v (s.par j)).cross ((s.oV q v (s.par j)).cross (s.oj q w j)))
      + ((s.oV q v j).cross (s.oj q δv j) + (s.oV q v (s.par j)).cross (s.oj q δv j)) + s.oj q δa j
def eT (s : Sys K) (q w v δv : ℕ → K) (j : ℕ) : Motion K :=
  (s.oV q v (s.par j)).cross (s.oj q w j) + s.oj q δv j

theorem eT_sum (q w v δv : ℕ → K) (j : ℕ) : s.eT q w v δv j
    = ∑ l ∈ range (s.jnv j), (w (s.iv j + l) • s.dVq q v j l + δv (s.iv j + l) • s.Jc q j l) := by
  unfold eT
  rw [cross_ojsum, oj_sum, ← sum_add_distrib]; rfl

theorem hT_sum (q w v δv a δa : ℕ → K) (j : ℕ) : s.hT q w v δv a δa j
    = ∑ l ∈ range (s.jnv j), (w (s.iv j + l) • s.dAq q v a j l + δv (s.iv j + l) • s.dAv q v j l
      + δa (s.iv j + l) • s.Jc q j l) := by
  have e2 : (s.oV q v (s.par j)).cross ((s.oV q v (s.par j)).cross (s.oj q w j))
      = ∑ l ∈ range (s.jnv j), w (s.iv j + l) • (s.oV q v (s.par j)).cross (s.dVq q v j l) := by
    rw [cross_ojsum, show (s.oV q v (s.par j)).cross _ = crossLin (s.oV q v (s.par j)) _ from rfl, map_sum]
    apply sum_congr rfl
    intro l _
    rw [map_smul]; rfl
  unfold hT
  rw [e2, cross_ojsum, cross_ojsum, cross_ojsum, oj_sum, ← sum_add_distrib, ← sum_add_distrib, ← sum_add_distrib,
    ← sum_add_distrib]
  apply sum_congr rfl
  intro l _
  unfold dAq dAv dVq
  simp only [smul_add]

open Classical in
/-- velocity and variation of the velocity produced by one coordinate -/
theorem eV_unit (h : s.Packed) (hq : s.At q) {i k : ℕ} (h1 : 1 ≤ i) (hi : i < s.n) (hk : k < s.jnv i) {b : ℕ}
    (hb : b < s.n) : s.eV q w (unit (s.iv i + k)) (fun _ => 0) b
      = ∑ j ∈ supp s.par s.n b, if anc s.par i (s.par j) then (s.Jc q i k).cross (s.oj q w j) else 0 := by
  rw [eV_eq h.par _ _ _ _ b hb]
  apply sum_congr rfl
  intro j hj
  obtain ⟨⟨j1, hj⟩, -⟩ := mem_supp.1 hj
  have hpj := h.par.2 j j1 hj
  have e0 : s.oj q (fun _ => 0) j = 0 := by
    rw [oj_sum]; apply sum_eq_zero; intro l _; rw [zero_smul]
  rw [e0, add_zero, oV_unit h hq h1 hi hk (show s.par j < s.n by omega)]
  split
  · rfl
  · ext <;> simp [Motion.cross]

/-- the variation of the torque as a sum on pairs of coordinates -/
theorem tau_var (h : s.Along sε q w dq) (hc : s.ConstS sε) (hk : s.Packed) (hq : s.At q)
    (hqε : sε.At (perturb q dq)) (dε : Data K[ε]) (v δv a δa : ℕ → K) (fext : ℕ → Force K) {i k : ℕ} (h1 : 1 ≤ i)
    (hi : i < s.n) (hki : k < s.jnv i) :
    ((rneaFext sε dε (perturb q dq) (perturb v δv) (perturb a δa) (fun i => (fext i).map inl)).tau (s.iv i + k)).snd
      = (∑ j ∈ Ico 1 s.n, ∑ l ∈ range (s.jnv j), (s.eQ q v a fext i k j l * w (s.iv j + l)
          + s.eD q v i k j l * δv (s.iv j + l) + s.eA q i k j l * δa (s.iv j + l)))
        + s.arm (s.iv i + k) * δa (s.iv i + k) := by
  classical
  have hp := hk.par
  have hr : s.iv i + k < s.nv := by have := hk.le_nv h1 hi; omega
  rw [tau_var0 h hc hk hq hqε dε v δv a δa fext hr]
  congr 1
  -- gather on the subtree of i
  have e1 : ∀ b ∈ Ico 1 s.n, ((s.oV q (unit (s.iv i + k)) b).dot ((s.oI q b).mulMF (s.hA (-s.grav) q w v δv a δa b)
            + (s.dB q v b).mulMF (s.eV q w v δv b))
          + (s.eV q w (unit (s.iv i + k)) (fun _ => 0) b).dot (s.oF (-s.grav) q v a fext b))
      = if anc s.par i b then dotF (s.Jc q i k) (∑ j ∈ supp s.par s.n b,
          ((s.oI q b).mulMF (s.hT q w v δv a δa j) + (s.dB q v b).mulMF (s.eT q w v δv j)
            + if anc s.par i (s.par j) then (s.oj q w j).crossF (s.oF (-s.grav) q v a fext b) else 0)) else 0 := by
    intro b hb
    obtain ⟨b1, hb⟩ := mem_Ico.1 hb
    rw [oV_unit hk hq h1 hi hki hb, eV_unit hk hq h1 hi hki hb]
    split
    · have eE : s.eV q w v δv b = ∑ j ∈ supp s.par s.n b, s.eT q w v δv j := eV_eq hp _ _ _ _ b hb
      have eH : s.hA (-s.grav) q w v δv a δa b = ∑ j ∈ supp s.par s.n b, s.hT q w v δv a δa j :=
        hA_eq hp _ _ _ _ _ _ _ b hb
      rw [eE, eH, M6.mulMF_fsum, M6.mulMF_fsum, sum_add_distrib, sum_add_distrib, map_add, map_add]
      change dotF (s.Jc q i k) (_ + _) + _ = _
      rw [map_add]
      congr 1
      rw [map_sum]
      have : ∀ (t : Finset ℕ) (g : ℕ → Motion K) (f : Force K), (∑ j ∈ t, g j).dot f = ∑ j ∈ t, (g j).dot f := by
        intro t g f
        induction t using Finset.induction_on with
        | empty => simp [Motion.dot, V3.dot]
        | insert x t hx ih => rw [sum_insert hx, sum_insert hx, ← ih]; simp [Motion.dot, V3.dot]; ring
      rw [this]
      apply sum_congr rfl
      intro j _
      split
      · exact Motion.cross_dot _ _ _
      · simp [Motion.dot, V3.dot, dotF]
    · rename_i hn
      rw [sum_eq_zero]
      · simp [Motion.dot, V3.dot]
      · intro j hj
        obtain ⟨⟨j1, hj⟩, hjb⟩ := mem_supp.1 hj
        rw [if_neg]
        intro hij
        exact hn (anc_trans hp ((anc_step j1 (hp.2 j j1 hj)).2 (Or.inr hij)) b hb hjb)
  rw [sum_congr rfl e1, ← sum_filter]
  change ∑ b ∈ subtree s.par s.n i, _ = _
  rw [← map_sum, sum_exchange hp h1 hi, map_sum]
  apply sum_congr rfl
  intro j hj
  obtain ⟨j1, hj⟩ := mem_Ico.1 hj
  have hpj := hp.2 j j1 hj
  have split_l : ∀ (A B : M6 K) (f : Force K), dotF (s.Jc q i k) (A.mulMF (s.hT q w v δv a δa j)
      + B.mulMF (s.eT q w v δv j) + (s.oj q w j).crossF f)
      = ∑ l ∈ range (s.jnv j), ((s.Jc q i k).dot (A.mulMF (s.dAq q v a j l) + B.mulMF (s.dVq q v j l)
          + (s.Jc q j l).crossF f) * w (s.iv j + l)
        + (s.Jc q i k).dot (A.mulMF (s.dAv q v j l) + B.mulMF (s.Jc q j l)) * δv (s.iv j + l)
        + (s.Jc q i k).dot (A.mulMF (s.Jc q j l)) * δa (s.iv j + l)) := by
    intro A B f
    rw [map_add, map_add]
    change dotLin (s.Jc q i k) A _ + dotLin (s.Jc q i k) B _ + dotCross (s.Jc q i k) f _ = _
    rw [hT_sum, eT_sum, oj_sum, map_sum, map_sum, map_sum, ← sum_add_distrib, ← sum_add_distrib]
    apply sum_congr rfl
    intro l _
    have ed : ∀ x y : Force K, (s.Jc q i k).dot (x + y) = (s.Jc q i k).dot x + (s.Jc q i k).dot y :=
      fun x y => (dotF (s.Jc q i k)).map_add x y
    simp only [map_add, map_smul, smul_eq_mul, ed]
    change _ * (s.Jc q i k).dot (A.mulMF _) + _ * (s.Jc q i k).dot (A.mulMF _) + _ * (s.Jc q i k).dot (A.mulMF _)
      + (_ * (s.Jc q i k).dot (B.mulMF _) + _ * (s.Jc q i k).dot (B.mulMF _)) + _ * (s.Jc q i k).dot ((s.Jc q j l).crossF f)
      = _
    ring
  have cf0 : ∀ x : Motion K, x.crossF (0 : Force K) = 0 := fun x => (crossFLin x).map_zero
  have gather : ∀ m, dotF (s.Jc q i k) (∑ b ∈ subtree s.par s.n m, ((s.oI q b).mulMF (s.hT q w v δv a δa j)
      + (s.dB q v b).mulMF (s.eT q w v δv j)
      + if anc s.par i (s.par j) then (s.oj q w j).crossF (s.oF (-s.grav) q v a fext b) else 0))
      = dotF (s.Jc q i k) ((s.oYm q m).mulMF (s.hT q w v δv a δa j) + (s.dBm q v m).mulMF (s.eT q w v δv j)
        + (s.oj q w j).crossF (if anc s.par i (s.par j) then s.oFm q v a fext m else 0)) := by
    intro m
    congr 1
    unfold oYm dBm oFm
    rw [sum_add_distrib, sum_add_distrib, M6.sum_mulMF, M6.sum_mulMF]
    congr 1
    split
    · exact (map_sum (crossFLin _) _ _).symm
    · rw [sum_const_zero, cf0]
  split
  · rename_i ha
    rw [gather, split_l]
    apply sum_congr rfl
    intro l _
    have hij : anc s.par i (s.par j) ↔ i ≠ j := by
      constructor
      · rintro x rfl; have := anc_le hp _ (by omega) x; omega
      · intro x
        rcases (anc_step j1 hpj).1 ha with y | y
        · exact absurd y x
        · exact y
    unfold eQ eD eA
    rw [if_pos ha, if_pos ha, if_pos ha]
    by_cases e : i = j
    · rw [if_pos e, if_neg (fun x => hij.1 x e), cf0]
    · rw [if_neg e, if_pos (hij.2 e)]
  · rename_i ha
    have hno : ¬ anc s.par i (s.par j) := fun x => ha ((anc_step j1 hpj).2 (Or.inr x))
    unfold eQ eD eA
    simp only [if_neg hno] at gather ⊢
    simp only [if_neg ha]
    split
    · rename_i hb
      rw [gather, split_l]
      apply sum_congr rfl
      intro l _
      rw [cf0, add_zero]
    · rw [map_zero]; symm
      apply sum_eq_zero
      intro l _; ring

end Sys
end Pin
