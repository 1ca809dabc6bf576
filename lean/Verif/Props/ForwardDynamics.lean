import Verif.Algo.AbaFrames
import Verif.Props.Dynamics

/-! # C16: forward dynamics -/

namespace Pin
open Finset

section field
variable {K : Type*} [Field K] {s : Sys K}

theorem abaWorld_end (s : Sys K) (hp : ParOk s.par s.n) (d : Data K) :
    (bwd (abaWorldEnd s) s.n d).ddq = d.ddq ∧ (bwd (abaWorldEnd s) s.n d).joints = d.joints ∧
    (bwd (abaWorldEnd s) s.n d).oa_gf = d.oa_gf :=
  bwd_ind (step := abaWorldEnd s) (n := s.n) (d := d)
    (P := fun _ (e : Data K) => e.ddq = d.ddq ∧ e.joints = d.joints ∧ e.oa_gf = d.oa_gf) hp.1 ⟨rfl, rfl, rfl⟩
    (fun _ _ _ _ ih => ih)

/-- the torque that the data of a call of ABA belongs to -/
theorem abaLocal_power (h : s.Packed) {q v t : ℕ → K} {fe : ℕ → Force K} {d : Data K}
    (hd : AL1 s q v (s.bf q v fe) t s.n d) (hR : s.Regular q) (w : ℕ → K) :
    s.dotv w t = (∑ i ∈ Ico 1 s.n, (s.V q w i).dot (s.F (-s.grav) q v (abaLocalRest s d).ddq i - fe i))
        + s.dotv w (fun r => s.arm r * (abaLocalRest s d).ddq r) := by
  rw [((abaLocalRest_ok h hd).2 ((local_blocks h hd).2.1 hR)).2 w]
  congr 1
  apply sum_congr rfl
  intro i _
  congr 1
  unfold Sys.F Sys.bf
  abel

theorem abaWorld_power (h : s.Packed) {q v t : ℕ → K} (hq : s.At q) {fe : ℕ → Force K} {d : Data K}
    (hd : AW1 s q v (s.obf q v fe) t s.n d) (hR : s.Regular q) (w : ℕ → K) :
    s.dotv w t = (∑ i ∈ Ico 1 s.n, (s.V q w i).dot (s.F (-s.grav) q v (abaWorldRest s d).ddq i - fe i))
        + s.dotv w (fun r => s.arm r * (abaWorldRest s d).ddq r) := by
  rw [((abaWorldRest_ok h hq hd).2 ((world_blocks h hq hd).2.1 hR)).2 w]
  congr 1
  apply sum_congr rfl
  intro i hi
  rw [mem_Ico] at hi
  have hv := s.oM_valid h.par hq i hi.2
  have e : (s.oI q i).mulMF ((s.oM q i).act (s.A (-s.grav) q v (abaWorldRest s d).ddq i)) + s.obf q v fe i
      = (s.oM q i).actF (s.F (-s.grav) q v (abaWorldRest s d).ddq i - fe i) := by
    unfold Sys.obf Sys.oI Sys.oV Sys.F
    rw [Inertia.matrix_mulMF, Inertia.matrix_mulMF, Inertia.act_mul hv, Inertia.act_mul hv, SE3.actInv_act hv,
      SE3.actInv_act hv, ← Motion.act_crossF hv, SE3.actF_sub, SE3.actF_add]
    abel
  rw [e]
  unfold Sys.oV
  rw [SE3.dot_act_actF hv]

/-- Powers without external force are powers with zero external force. -/
theorem power_nofext (q v a w : ℕ → K) :
    (∑ i ∈ Ico 1 s.n, (s.V q w i).dot (s.F (-s.grav) q v a i - (fun _ => (0 : Force K)) i))
      = ∑ i ∈ Ico 1 s.n, (s.V q w i).dot (s.F (-s.grav) q v a i) := by
  simp only [sub_zero]

/-- **Forward dynamics inverts inverse dynamics**: the acceleration that `aba` returns for the torque `tau` is
one for which `rnea` returns `tau`; both conventions, with and without external forces, whatever the
contents of the two `data`. -/
theorem C16_forward_inverse (h : s.Packed) {q : ℕ → K} (hq : s.At q) (hR : s.Regular q) (d d' : Data K)
    (v tau : ℕ → K) (fext : ℕ → Force K) {r : ℕ} (hr : r < s.nv) :
    (rnea s d' q v (abaLocal s d q v tau).ddq).tau r = tau r ∧
    (rnea s d' q v (abaWorld s d q v tau).ddq).tau r = tau r ∧
    (rneaFext s d' q v (abaLocalFext s d q v tau fext).ddq fext).tau r = tau r ∧
    (rneaFext s d' q v (abaWorldFext s d q v tau fext).ddq fext).tau r = tau r := by
  refine ⟨?_, ?_, ?_, ?_⟩
  · refine Sys.dotv_ext (fun w => ?_) hr
    rw [rnea_power h.wf d' hq, ← power_nofext]
    exact (abaLocal_power h (abaLocal_al1 h.par hq v tau (d :=
      { d with v := upd d.v 0 0, a_gf := upd d.a_gf 0 (-s.grav), f := upd d.f 0 0, u := tau })
      (upd_self d.a_gf 0 _) rfl) hR w).symm
  · refine Sys.dotv_ext (fun w => ?_) hr
    rw [rnea_power h.wf d' hq, ← power_nofext]
    have := (abaWorld_power h hq (abaWorld_aw1 h hq v tau (d :=
      { d with oa_gf := upd d.oa_gf 0 (-s.grav), of := upd d.of 0 0, u := tau })
      (upd_self d.oa_gf 0 _) rfl) hR w).symm
    unfold abaWorld
    rw [(abaWorld_end s h.par _).1]
    exact this
  · refine Sys.dotv_ext (fun w => ?_) hr
    rw [rneaFext_power h.wf d' hq]
    exact (abaLocal_power h (abaLocalFext_al1 h.par hq v tau fext (d :=
      { d with v := upd d.v 0 0, a_gf := upd d.a_gf 0 (-s.grav), u := tau })
      (upd_self d.a_gf 0 _) rfl) hR w).symm
  · refine Sys.dotv_ext (fun w => ?_) hr
    rw [rneaFext_power h.wf d' hq]
    exact (abaWorld_power h hq (abaWorldFext_aw1 h hq v tau fext (d :=
      { d with oa_gf := upd d.oa_gf 0 (-s.grav), u := tau })
      (upd_self d.oa_gf 0 _) rfl) hR w).symm

/-- a torque is reached by some acceleration, so no velocity is in the kernel of the mass matrix -/
theorem Sys.Regular.kernel (h : s.Packed) {q : ℕ → K} (hq : s.At q) (hR : s.Regular q) {y : ℕ → K}
    (hy : ∀ w, s.massForm q w y = 0) {r : ℕ} (hr : r < s.nv) : y r = 0 := by
  let tau : ℕ → K := fun c => Sys.unit r c + (nonLinearEffects s Data.zero q (fun _ => 0)).nle c
  have e := C12_affine h.wf Data.zero Data.zero hq (fun _ => 0) (abaLocal s Data.zero q (fun _ => 0) tau).ddq y
  have e1 : s.dotv y (rnea s Data.zero q (fun _ => 0) (abaLocal s Data.zero q (fun _ => 0) tau).ddq).tau = s.dotv y tau :=
    sum_congr rfl fun c hc => by
      rw [(C16_forward_inverse h hq hR Data.zero Data.zero (fun _ => 0) tau (fun _ => 0) (mem_range.1 hc)).1]
  rw [e1, Sys.dotv_add, Sys.massForm_symm, hy, zero_add] at e
  have e2 : s.dotv y (Sys.unit r) = 0 := by linear_combination e
  have e3 : s.dotv (Sys.unit r) y = s.dotv y (Sys.unit r) := sum_congr rfl fun c _ => mul_comm _ _
  rw [← Sys.dotv_unit hr y, e3, e2]

/-- two accelerations with the same inverse dynamics are equal -/
theorem Sys.Regular.inj (h : s.Packed) {q : ℕ → K} (hq : s.At q) (hR : s.Regular q) {v a b : ℕ → K}
    (hab : ∀ w, s.massForm q w a = s.massForm q w b) {r : ℕ} (hr : r < s.nv) : a r = b r := by
  have := hR.kernel h hq (y := fun r => a r + (-1) * b r) (fun w => by
    rw [Sys.massForm_add_right h.par, Sys.massForm_smul_right h.par, hab]; ring) hr
  linear_combination this

theorem rnea_inj (h : s.Packed) {q : ℕ → K} (hq : s.At q) (hR : s.Regular q) {d d' : Data K} {v a b : ℕ → K}
    (hab : ∀ r < s.nv, (rnea s d q v a).tau r = (rnea s d' q v b).tau r) {r : ℕ} (hr : r < s.nv) : a r = b r := by
  refine hR.inj (v := v) h hq (fun w => ?_) hr
  have e1 := C12_affine h.wf d Data.zero hq v a w
  have e2 := C12_affine h.wf d' Data.zero hq v b w
  have e3 : s.dotv w (rnea s d q v a).tau = s.dotv w (rnea s d' q v b).tau :=
    sum_congr rfl fun c hc => by rw [hab c (mem_range.1 hc)]
  linear_combination e3 - e1 + e2

theorem rneaFext_inj (h : s.Packed) {q : ℕ → K} (hq : s.At q) (hR : s.Regular q) {d d' : Data K} {v a b : ℕ → K}
    {fext : ℕ → Force K}
    (hab : ∀ r < s.nv, (rneaFext s d q v a fext).tau r = (rneaFext s d' q v b fext).tau r) {r : ℕ} (hr : r < s.nv) :
    a r = b r := by
  refine rnea_inj (v := v) (d := d) (d' := d') h hq hR (fun c hc => ?_) hr
  have := hab c hc
  rw [C15_fext h.wf d d hq v a fext hc, C15_fext h.wf d' d' hq v b fext hc] at this
  linear_combination this

/-- **Inverse dynamics followed by forward dynamics** returns the acceleration. -/
theorem C16_inverse_forward (h : s.Packed) {q : ℕ → K} (hq : s.At q) (hR : s.Regular q) (d d' : Data K)
    (v a : ℕ → K) (fext : ℕ → Force K) {r : ℕ} (hr : r < s.nv) :
    (abaLocal s d q v (rnea s d' q v a).tau).ddq r = a r ∧
    (abaWorld s d q v (rnea s d' q v a).tau).ddq r = a r ∧
    (abaLocalFext s d q v (rneaFext s d' q v a fext).tau fext).ddq r = a r ∧
    (abaWorldFext s d q v (rneaFext s d' q v a fext).tau fext).ddq r = a r := by
  have k := fun t (c : ℕ) (hc : c < s.nv) => C16_forward_inverse h hq hR d d' v t fext hc
  refine ⟨?_, ?_, ?_, ?_⟩
  · exact rnea_inj h hq hR (fun c hc => (k _ c hc).1) hr
  · exact rnea_inj h hq hR (fun c hc => (k _ c hc).2.1) hr
  · exact rneaFext_inj h hq hR (fun c hc => (k _ c hc).2.2.1) hr
  · exact rneaFext_inj h hq hR (fun c hc => (k _ c hc).2.2.2) hr

/-- Both conventions return the same acceleration, and it does not depend on the contents of `data`. -/
theorem C16_conventions (h : s.Packed) {q : ℕ → K} (hq : s.At q) (hR : s.Regular q) (d d' : Data K)
    (v tau : ℕ → K) (fext : ℕ → Force K) {r : ℕ} (hr : r < s.nv) :
    (abaLocal s d q v tau).ddq r = (abaWorld s d' q v tau).ddq r ∧
    (abaLocalFext s d q v tau fext).ddq r = (abaWorldFext s d' q v tau fext).ddq r := by
  constructor
  · refine rnea_inj (d := Data.zero) (d' := Data.zero) (v := v) h hq hR (fun c hc => ?_) hr
    rw [(C16_forward_inverse h hq hR d Data.zero v tau fext hc).1,
      (C16_forward_inverse h hq hR d' Data.zero v tau fext hc).2.1]
  · refine rneaFext_inj (d := Data.zero) (d' := Data.zero) (v := v) (fext := fext) h hq hR (fun c hc => ?_) hr
    rw [(C16_forward_inverse h hq hR d Data.zero v tau fext hc).2.2.1,
      (C16_forward_inverse h hq hR d' Data.zero v tau fext hc).2.2.2]

/-- The hypothesis `Regular` is the invertibility of the blocks `data.joints[i].StU()` that any of the four
variants leaves in `data`. -/
theorem C16_blocks (h : s.Packed) {q : ℕ → K} (hq : s.At q) (d : Data K) (v tau : ℕ → K) (fext : ℕ → Force K) :
    (s.Regular q ↔ ∀ i, 1 ≤ i → i < s.n → InvOk (s.jnv i) ((abaLocal s d q v tau).joints i).StU) ∧
    (s.Regular q ↔ ∀ i, 1 ≤ i → i < s.n → InvOk (s.jnv i) ((abaWorld s d q v tau).joints i).StU) ∧
    (s.Regular q ↔ ∀ i, 1 ≤ i → i < s.n → InvOk (s.jnv i) ((abaLocalFext s d q v tau fext).joints i).StU) ∧
    (s.Regular q ↔ ∀ i, 1 ≤ i → i < s.n → InvOk (s.jnv i) ((abaWorldFext s d q v tau fext).joints i).StU) := by
  refine ⟨?_, ?_, ?_, ?_⟩
  · exact (local_blocks h (abaLocal_al1 h.par hq v tau (d :=
      { d with v := upd d.v 0 0, a_gf := upd d.a_gf 0 (-s.grav), f := upd d.f 0 0, u := tau })
      (upd_self d.a_gf 0 _) rfl)).2
  · have := (world_blocks h hq (abaWorld_aw1 h hq v tau (d :=
      { d with oa_gf := upd d.oa_gf 0 (-s.grav), of := upd d.of 0 0, u := tau })
      (upd_self d.oa_gf 0 _) rfl)).2
    unfold abaWorld
    rw [(abaWorld_end s h.par _).2.1]
    exact this
  · exact (local_blocks h (abaLocalFext_al1 h.par hq v tau fext (d :=
      { d with v := upd d.v 0 0, a_gf := upd d.a_gf 0 (-s.grav), u := tau })
      (upd_self d.a_gf 0 _) rfl)).2
  · exact (world_blocks h hq (abaWorldFext_aw1 h hq v tau fext (d :=
      { d with oa_gf := upd d.oa_gf 0 (-s.grav), u := tau })
      (upd_self d.oa_gf 0 _) rfl)).2

/-- The blocks are invertible whenever no joint velocity but zero has zero kinetic energy, and then only the
zero velocity is in the kernel of the mass matrix. -/
theorem C16_regular_of_definite (h : s.Packed) {q : ℕ → K}
    (hd : ∀ w, s.massForm q w w = 0 → ∀ r < s.nv, w r = 0) : s.Regular q :=
  Sys.Regular.of_definite h hd

end field

section ordered
variable {K : Type*} [Field K] [LinearOrder K] [IsStrictOrderedRing K] [HasEps K] {s : Sys K}

/-- The blocks are invertible for massive bodies and joints with independent columns. -/
theorem C16_regular_physical (h : s.Packed) {q : ℕ → K}
    (hY : ∀ i, 1 ≤ i → i < s.n → 0 < (s.Y i).mass ∧ ∀ w, w ≠ 0 → 0 < (s.Y i).rotI.vtiv w)
    (hS : ∀ i, 1 ≤ i → i < s.n → ∀ x, comb (s.S q i) (s.jnv i) x = 0 → ∀ k, k < s.jnv i → x k = 0)
    (ha : ∀ r, r < s.nv → 0 ≤ s.arm r) : s.Regular q := by
  apply C16_regular_of_definite h
  intro w hw r hr
  by_contra hne
  exact absurd hw (Sys.massForm_pos h hY hS ha w ⟨r, hr, hne⟩).ne'

/-- Positive armature makes every model with physical inertias regular, at every configuration. -/
theorem C16_regular_armature (h : s.Packed) (q : ℕ → K) (hY : ∀ i, 1 ≤ i → i < s.n → (s.Y i).Psd)
    (ha : ∀ r, r < s.nv → 0 < s.arm r) : s.Regular q := by
  apply C16_regular_of_definite h
  intro w hw r hr
  have n1 : 0 ≤ ∑ i ∈ Ico 1 s.n, (s.V q w i).dot ((s.Y i).mul (s.V q w i)) := by
    apply sum_nonneg
    intro i hi
    rw [mem_Ico] at hi
    rw [← Inertia.vtiv_eq]
    exact (hY i hi.1 hi.2).vtiv_nonneg _
  have n2 : ∀ r ∈ range s.nv, 0 ≤ w r * (s.arm r * w r) := by
    intro r hr
    have := ha r (mem_range.1 hr)
    nlinarith [mul_self_nonneg (w r), mul_nonneg this.le (mul_self_nonneg (w r))]
  have z : ∑ r ∈ range s.nv, w r * (s.arm r * w r) = 0 := by
    refine le_antisymm ?_ (sum_nonneg n2)
    have : (∑ i ∈ Ico 1 s.n, (s.V q w i).dot ((s.Y i).mul (s.V q w i)))
      + ∑ r ∈ range s.nv, w r * (s.arm r * w r) = 0 := hw
    linarith
  have := (sum_eq_zero_iff_of_nonneg n2).1 z r (mem_range.2 hr)
  rcases mul_eq_zero.1 this with e | e
  · exact e
  · exact (mul_eq_zero.1 e).resolve_left (ha r hr).ne'

end ordered

/-! ## the hypotheses are met -/

theorem Ex.sysA_regular : Ex.sysA.Regular Ex.qA := by
  refine C16_regular_physical Ex.sysA_packed (fun i _ _ => ?_) Ex.sysA_cols (fun r _ => ?_)
  · simp only [Ex.sysA]
    split
    · exact Ex.iB_pd
    · exact Ex.iA_pd
  · simp only [Ex.sysA]; split <;> norm_num

example : Ex.sysA.Packed ∧ Ex.sysA.At Ex.qA ∧ Ex.sysA.Regular Ex.qA :=
  ⟨Ex.sysA_packed, Ex.sysA_at, Ex.sysA_regular⟩

/-! ## findings -/
namespace Ex
/-- a pendulum about `x` under gravity along `-z` -/
def sysG : Sys ℚ where
  n := 2
  par _ := 0
  pl _ := 1
  Y _ := iA
  jt _ := jRevolute 0
  iq _ := 0
  iv _ := 0
  nv := 1
  arm _ := 0
  grav := ⟨⟨0, 0, -10⟩, 0⟩
end Ex

set_option maxRecDepth 100000 in
/-- `aba` in the local convention also fills `data.a` ("joint accelerations"), by removing gravity with the
rotation `data.oMi[i]` (`aba.hxx:478-479`), which no pass of this algorithm computes: on a fresh `data` the
field is wrong as soon as the joint has turned. The returned `data.ddq` is not affected. -/
theorem C16_local_acceleration_counterexample :
    ∃ q : ℕ → ℚ, ((abaLocal Ex.sysG Data.zero q (fun _ => 0) (fun _ => 0)).a 1).lin
      ≠ (Ex.sysG.A 0 q (fun _ => 0) (abaLocal Ex.sysG Data.zero q (fun _ => 0) (fun _ => 0)).ddq 1).lin :=
  ⟨fun _ => 1, by decide +kernel⟩

end Pin
