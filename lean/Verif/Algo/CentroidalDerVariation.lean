import Verif.Props.Centroidal
import Verif.Algo.TorqueVariation

/-!
# First-order variation of the momentum of the system and of its time derivative

`(q, v, a)` moves in the direction `(w, δv, δa)`.
-/

set_option linter.unusedSectionVars false

namespace Pin
open Finset DualNumber TrivSqZeroExt
universe u
variable {K : Type u} [Field K]

namespace Sys

/-- the same model without gravity -/
def noGrav (s : Sys K) : Sys K := { s with grav := 0 }

variable {s : Sys K}

theorem noGrav_oM : s.noGrav.oM = s.oM := rfl
theorem noGrav_wA : s.noGrav.wA = s.wA := rfl
theorem noGrav_oV : s.noGrav.oV = s.oV := rfl
theorem noGrav_oj : s.noGrav.oj = s.oj := rfl
theorem noGrav_par : s.noGrav.par = s.par := rfl
theorem noGrav_n : s.noGrav.n = s.n := rfl
theorem noGrav_A : s.noGrav.A = s.A := rfl
theorem noGrav_V : s.noGrav.V = s.V := rfl
theorem noGrav_Y : s.noGrav.Y = s.Y := rfl
theorem noGrav_oF : s.noGrav.oF = s.oF := by
  funext a0 q v a fext b
  unfold oF F
  rw [noGrav_A, noGrav_V, noGrav_Y, noGrav_oM]
theorem noGrav_jnv : s.noGrav.jnv = s.jnv := rfl
theorem noGrav_iv : s.noGrav.iv = s.iv := rfl
theorem noGrav_Jc : s.noGrav.Jc = s.Jc := rfl
theorem noGrav_oYm : s.noGrav.oYm = s.oYm := rfl
theorem noGrav_dBm : s.noGrav.dBm = s.dBm := rfl
theorem noGrav_dVq : s.noGrav.dVq = s.dVq := rfl
theorem noGrav_dAv : s.noGrav.dAv = s.dAv := rfl
theorem noGrav_neg : -s.noGrav.grav = 0 := neg_zero

theorem noGrav_hT (q w v δv a δa : ℕ → K) (j : ℕ) : s.noGrav.hT q w v δv a δa j =
    ((s.wA 0 q v a (s.par j)).cross (s.oj q w j)
      + (s.oV q v (s.par j)).cross ((s.oV q v (s.par j)).cross (s.oj q w j)))
      + ((s.oV q v j).cross (s.oj q δv j) + (s.oV q v (s.par j)).cross (s.oj q δv j)) + s.oj q δa j := by
  unfold hT
  rw [noGrav_neg, noGrav_wA, noGrav_oV, noGrav_oj, noGrav_par]

theorem noGrav_oFm (q v a : ℕ → K) (fext : ℕ → Force K) (j : ℕ) :
    s.noGrav.oFm q v a fext j = ∑ b ∈ subtree s.par s.n j, s.oF 0 q v a fext b := by
  unfold oFm
  rw [noGrav_neg, noGrav_oF, noGrav_par, noGrav_n]

theorem exchange0 {M : Type*} [AddCommMonoid M] (G : ℕ → ℕ → M) :
    ∑ b ∈ Ico 1 s.n, ∑ j ∈ supp s.par s.n b, G b j = ∑ j ∈ Ico 1 s.n, ∑ b ∈ subtree s.par s.n j, G b j := by
  apply sum_comm'
  intro b j
  rw [mem_Ico, mem_Ico, mem_subtree, mem_supp]
  tauto

/-- momentum of a subtree -/
noncomputable def ohm (s : Sys K) (q v : ℕ → K) (i : ℕ) : Force K :=
  ∑ b ∈ subtree s.par s.n i, (s.oI q b).mulMF (s.oV q v b)

/-- columns: derivative of the momentum in the configuration -/
noncomputable def hQ (s : Sys K) (q v : ℕ → K) (j l : ℕ) : Force K :=
  (s.Jc q j l).crossF (s.ohm q v j) + (s.oYm q j).mulMF (s.dVq q v j l)
/-- of the rate of change of the momentum in the configuration, gravity and external forces counted -/
noncomputable def fQ (s : Sys K) (q v a : ℕ → K) (fext : ℕ → Force K) (j l : ℕ) : Force K :=
  (s.oYm q j).mulMF (s.dAq q v a j l) + (s.dBm q v j).mulMF (s.dVq q v j l) + (s.Jc q j l).crossF (s.oFm q v a fext j)
/-- in the velocity -/
noncomputable def fV (s : Sys K) (q v : ℕ → K) (j l : ℕ) : Force K :=
  (s.oYm q j).mulMF (s.dAv q v j l) + (s.dBm q v j).mulMF (s.Jc q j l)
/-- in the acceleration -/
noncomputable def fA (s : Sys K) (q : ℕ → K) (j l : ℕ) : Force K := (s.oYm q j).mulMF (s.Jc q j l)

/-- `x ×* f` in `x` -/
def crossFLin' (f : Force K) : Motion K →ₗ[K] Force K where
  toFun x := x.crossF f
  map_add' x y := by ext <;> simp [Motion.crossF] <;> ring
  map_smul' c x := by ext <;> simp [Motion.crossF] <;> ring

theorem crossF_fsum {ι : Type*} (t : Finset ι) (g : ι → Motion K) (f : Force K) :
    (∑ i ∈ t, g i).crossF f = ∑ i ∈ t, (g i).crossF f := map_sum (crossFLin' f) g t

variable {sε : Sys K[ε]} {q w dq : ℕ → K}

/-- variation of the momentum -/
theorem hsum_var (h : s.Along sε q w dq) (hc : s.ConstS sε) (hp : ParOk s.par s.n) (hq : s.At q) (v δv : ℕ → K) :
    (sε.hsum (perturb q dq) (perturb v δv)).map snd
      = ∑ j ∈ Ico 1 s.n, ∑ l ∈ range (s.jnv j), (w (s.iv j + l) • s.hQ q v j l + δv (s.iv j + l) • s.fA q j l) := by
  rw [hsum_snd h hp hq]
  have e1 : ∀ b ∈ Ico 1 s.n, (s.oM q b).actF ((s.V q w b).crossF ((s.Y b).mul (s.V q v b))
        + (s.Y b).mul ((sε.V (perturb q dq) (perturb v δv) b).map snd))
      = ∑ j ∈ supp s.par s.n b, ((s.oj q w j).crossF ((s.oI q b).mulMF (s.oV q v b))
          + (s.oI q b).mulMF (s.eT q w v δv j)) := by
    intro b hb
    have hb := (mem_Ico.1 hb).2
    have eE : s.eV q w v δv b = ∑ j ∈ supp s.par s.n b, s.eT q w v δv j := eV_eq hp _ _ _ _ b hb
    rw [SE3.actF_add, Motion.act_crossF (s.oM_valid hp hq b hb), ← oI_act hp hq hb, ← oI_act hp hq hb,
      V_var h hc hp hq v δv b hb, sum_add_distrib, ← M6.mulMF_fsum, ← eE, ← crossF_fsum]
    have : (s.oM q b).act (s.V q w b) = ∑ j ∈ supp s.par s.n b, s.oj q w j := oV_eq hp hq w b hb
    rw [this]; rfl
  rw [sum_congr rfl e1, exchange0]
  apply sum_congr rfl
  intro j _
  rw [sum_add_distrib, ← M6.sum_mulMF]
  have : ∑ b ∈ subtree s.par s.n j, (s.oj q w j).crossF ((s.oI q b).mulMF (s.oV q v b))
      = (s.oj q w j).crossF (s.ohm q v j) := (map_sum (crossFLin _) _ _).symm
  rw [this, oj_sum, eT_sum, crossF_fsum, M6.mulMF_fsum, ← sum_add_distrib]
  apply sum_congr rfl
  intro l _
  change crossFLin' _ (_ • _) + (s.oYm q j).lin _ = _
  rw [map_smul, map_add, map_smul, map_smul, ← add_assoc, ← smul_add]; rfl

/-- the rate of change of the momentum is the sum of the forces on the bodies -/
theorem dhsum_oF (q v a : ℕ → K) : s.dhsum q v a = ∑ b ∈ Ico 1 s.n, s.oF 0 q v a (fun _ => 0) b := by
  unfold dhsum oF F
  apply sum_congr rfl
  intro b _
  rw [sub_zero]

theorem dhsum_fst (h : s.Along sε q w dq) (hc : s.ConstS sε) (hp : ParOk s.par s.n) (hq : s.At q) (v δv a δa : ℕ → K) :
    (sε.dhsum (perturb q dq) (perturb v δv) (perturb a δa)).map fst = s.dhsum q v a := by
  unfold dhsum
  rw [Force.map_fst_sum, h.n]
  apply sum_congr rfl
  intro b hb
  have hb := (mem_Ico.1 hb).2
  have e := F_fst h hc hp hq 0 v δv a δa b hb
  rw [show ((0 : Motion K).map inl : Motion K[ε]) = 0 by ext <;> simp [Motion.map, V3.map]] at e
  rw [(Sys.oM_moves h hp hq b hb).fst_actF]
  exact congrArg _ e

/-- variation of the rate of change of the momentum -/
theorem dhsum_var (h : s.Along sε q w dq) (hc : s.ConstS sε) (hp : ParOk s.par s.n) (hq : s.At q)
    (v δv a δa : ℕ → K) :
    (sε.dhsum (perturb q dq) (perturb v δv) (perturb a δa)).map snd
      = ∑ j ∈ Ico 1 s.n, ∑ l ∈ range (s.jnv j), (w (s.iv j + l) • s.noGrav.fQ q v a (fun _ => 0) j l
          + δv (s.iv j + l) • s.fV q v j l + δa (s.iv j + l) • s.fA q j l) := by
  have z : ((0 : Motion K).map inl : Motion K[ε]) = 0 := by ext <;> simp [Motion.map, V3.map]
  unfold dhsum
  rw [Force.map_snd_sum, h.n]
  have e1 : ∀ b ∈ Ico 1 s.n, ((sε.oM (perturb q dq) b).actF ((sε.Y b).mul (sε.A 0 (perturb q dq) (perturb v δv)
        (perturb a δa) b) + (sε.V (perturb q dq) (perturb v δv) b).crossF
          ((sε.Y b).mul (sε.V (perturb q dq) (perturb v δv) b)))).map snd
      = ∑ j ∈ supp s.par s.n b, ((s.oj q w j).crossF (s.oF 0 q v a (fun _ => 0) b)
          + (s.oI q b).mulMF (s.noGrav.hT q w v δv a δa j) + (s.dB q v b).mulMF (s.eT q w v δv j)) := by
    intro b hb
    have hb := (mem_Ico.1 hb).2
    have e0 := F_fst h hc hp hq 0 v δv a δa b hb
    have e2 := F_var h hc hp hq 0 v δv a δa b hb
    rw [z] at e0 e2
    have eE : s.eV q w v δv b = ∑ j ∈ supp s.par s.n b, s.eT q w v δv j := eV_eq hp _ _ _ _ b hb
    have eH : s.hA 0 q w v δv a δa b = ∑ j ∈ supp s.par s.n b, s.noGrav.hT q w v δv a δa j := by
      simp only [noGrav_hT]
      exact hA_eq hp _ _ _ _ _ _ _ b hb
    rw [(Sys.oM_moves h hp hq b hb).snd_actF (s.oM_valid hp hq b hb)]
    change (s.oM q b).actF ((s.V q w b).crossF ((sε.F 0 (perturb q dq) (perturb v δv) (perturb a δa) b).map fst)
      + (sε.F 0 (perturb q dq) (perturb v δv) (perturb a δa) b).map snd) = _
    rw [e0, SE3.actF_add, e2, Motion.act_crossF (s.oM_valid hp hq b hb)]
    have eo : (s.oM q b).act (s.V q w b) = ∑ j ∈ supp s.par s.n b, s.oj q w j := oV_eq hp hq w b hb
    have ef : (s.oM q b).actF (s.F 0 q v a b) = s.oF 0 q v a (fun _ => 0) b := by
      unfold oF; rw [sub_zero]
    rw [eo, ef, eE, eH, sum_add_distrib, sum_add_distrib, ← M6.mulMF_fsum, ← M6.mulMF_fsum, ← crossF_fsum, add_assoc]
  rw [sum_congr rfl e1, exchange0]
  apply sum_congr rfl
  intro j _
  rw [sum_add_distrib, sum_add_distrib, ← M6.sum_mulMF, ← M6.sum_mulMF]
  have e2 : ∑ b ∈ subtree s.par s.n j, (s.oj q w j).crossF (s.oF 0 q v a (fun _ => 0) b)
      = (s.oj q w j).crossF (s.noGrav.oFm q v a (fun _ => 0) j) := by
    rw [noGrav_oFm]
    exact (map_sum (crossFLin _) _ _).symm
  rw [e2, oj_sum, eT_sum, hT_sum (s := s.noGrav), noGrav_jnv, noGrav_iv, noGrav_Jc, noGrav_dAv, crossF_fsum, M6.mulMF_fsum, M6.mulMF_fsum, ← sum_add_distrib, ← sum_add_distrib]
  apply sum_congr rfl
  intro l _
  unfold fQ fV fA
  rw [noGrav_Jc, noGrav_oYm, noGrav_dBm, noGrav_dVq]
  simp only [smul_add]
  have ec : ∀ (c : K) (x : Motion K) (f : Force K), (c • x).crossF f = c • x.crossF f :=
    fun c x f => (crossFLin' f).map_smul c x
  simp only [ec, M6.mulMF_add, M6.mulMF_smul]
  change w (s.iv j + l) • (s.Jc q j l).crossF (s.noGrav.oFm q v a (fun _ => 0) j)
    + (w (s.iv j + l) • (s.oYm q j).mulMF (s.noGrav.dAq q v a j l) + δv (s.iv j + l) • (s.oYm q j).mulMF (s.dAv q v j l)
      + δa (s.iv j + l) • (s.oYm q j).mulMF (s.Jc q j l))
    + (w (s.iv j + l) • (s.dBm q v j).mulMF (s.dVq q v j l) + δv (s.iv j + l) • (s.dBm q v j).mulMF (s.Jc q j l))
    = w (s.iv j + l) • (s.oYm q j).mulMF (s.noGrav.dAq q v a j l)
      + w (s.iv j + l) • (s.dBm q v j).mulMF (s.dVq q v j l)
      + w (s.iv j + l) • (s.Jc q j l).crossF (s.noGrav.oFm q v a (fun _ => 0) j)
    + (δv (s.iv j + l) • (s.oYm q j).mulMF (s.dAv q v j l) + δv (s.iv j + l) • (s.dBm q v j).mulMF (s.Jc q j l))
    + δa (s.iv j + l) • (s.oYm q j).mulMF (s.Jc q j l)
  abel

end Sys
end Pin
