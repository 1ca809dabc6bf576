import Verif.Algo.AbaDerVariation

/-!
# C54: partial derivatives of the forward dynamics

The specification is in `Verif/Spec/FwdDer.lean`. `Sys.ConstS`: no joint has a motion subspace that depends on the
configuration. `Sys.Regular q`: the matrices that `aba` inverts are invertible (it holds whenever the joint-space inertia
is positive definite, `C16_definite`). `Sys.BranchZero`: the entries between different branches of a matrix are zero.
-/

namespace Pin
open Finset DualNumber TrivSqZeroExt
universe u
variable {K : Type u} [Field K] [LinearOrder K] [IsStrictOrderedRing K] [HasEps K] {s : Sys K} {sε : Sys K[ε]}
  {q w dq : ℕ → K}

/-- `computeABADerivatives` with external forces: the three matrices are the derivatives of the forward dynamics, and
`data.ddq` is the acceleration. The entries between different branches of `data.dtau_dq` and `data.dtau_dv` have to be
zero before the call, and are after it (`C54_stale_counterexample`). -/
theorem C54_fext_partial (h : s.Packed) (hf : s.Full) (hcr : crbaCheck s.par s.n = true) (hm : s.MassesOk)
    (hal : s.Along sε q w dq) (hc : s.ConstS sε) (hq : s.At q) (hqε : sε.At (perturb q dq)) (hR : s.Regular q)
    (d : Data K) (v tau : ℕ → K) (fext : ℕ → Force K) (o : AbaDer K) (zQ : s.BranchZero d.dtau_dq)
    (zV : s.BranchZero d.dtau_dv) :
    let x := computeABADerivativesFext s d q v tau fext o
    IsFwdDer s sε q w dq v tau fext x.1.ddq x.2.dq x.2.dv x.2.dtau ∧ s.BranchZero x.1.dtau_dq ∧
      s.BranchZero x.1.dtau_dv := by
  obtain ⟨e, e1, e2, e3, e4⟩ := abaDer_mid h hcr hq hR d v tau fext o
  rw [e1]
  obtain ⟨a1, a2, a3, -⟩ := abaDer_core h hf hcr hm hal hc hq hqε hR e2 (by rw [e3]; exact zQ) (by rw [e4]; exact zV) d.Minv
  exact ⟨a1, a2, a3⟩

/-- `computeABADerivatives` without external forces. -/
theorem C54_aba_partial (h : s.Packed) (hf : s.Full) (hcr : crbaCheck s.par s.n = true) (hm : s.MassesOk)
    (hal : s.Along sε q w dq) (hc : s.ConstS sε) (hq : s.At q) (hqε : sε.At (perturb q dq)) (hR : s.Regular q)
    (d : Data K) (v tau : ℕ → K) (o : AbaDer K) (zQ : s.BranchZero d.dtau_dq) (zV : s.BranchZero d.dtau_dv) :
    let x := computeABADerivatives s d q v tau o
    IsFwdDer s sε q w dq v tau (fun _ => 0) x.1.ddq x.2.dq x.2.dv x.2.dtau ∧ s.BranchZero x.1.dtau_dq ∧
      s.BranchZero x.1.dtau_dv := by
  rw [abaDer_nofext]
  exact C54_fext_partial h hf hcr hm hal hc hq hqε hR d v tau (fun _ => 0) o zQ zV

/-- The overloads that store the matrices in `data.ddq_dq`, `data.ddq_dv` and `data.Minv`. -/
theorem C54_in_data_partial (h : s.Packed) (hf : s.Full) (hcr : crbaCheck s.par s.n = true) (hm : s.MassesOk)
    (hal : s.Along sε q w dq) (hc : s.ConstS sε) (hq : s.At q) (hqε : sε.At (perturb q dq)) (hR : s.Regular q)
    (d : Data K) (v tau : ℕ → K) (fext : ℕ → Force K) (zQ : s.BranchZero d.dtau_dq) (zV : s.BranchZero d.dtau_dv) :
    (let e := computeABADerivativesIn s d q v tau
     IsFwdDer s sε q w dq v tau (fun _ => 0) e.ddq e.ddq_dq e.ddq_dv e.Minv) ∧
    (let e := computeABADerivativesFextIn s d q v tau fext
     IsFwdDer s sε q w dq v tau fext e.ddq e.ddq_dq e.ddq_dv e.Minv) :=
  ⟨(C54_aba_partial h hf hcr hm hal hc hq hqε hR d v tau ⟨d.ddq_dq, d.ddq_dv, d.Minv⟩ zQ zV).1,
   (C54_fext_partial h hf hcr hm hal hc hq hqε hR d v tau fext ⟨d.ddq_dq, d.ddq_dv, d.Minv⟩ zQ zV).1⟩

/-- The overloads without `q`, `v` and `tau`, after `aba` in the world convention on the same data. After the default
(local) convention they are wrong: `C54_after_local_counterexample`. -/
theorem C54_after_aba_partial (h : s.Packed) (hf : s.Full) (hcr : crbaCheck s.par s.n = true) (hm : s.MassesOk)
    (hal : s.Along sε q w dq) (hc : s.ConstS sε) (hq : s.At q) (hqε : sε.At (perturb q dq)) (hR : s.Regular q)
    (d : Data K) (v tau : ℕ → K) (fext : ℕ → Force K) (o : AbaDer K) (zQ : s.BranchZero d.dtau_dq)
    (zV : s.BranchZero d.dtau_dv) :
    (let a := abaWorld s d q v tau
     let x := computeABADerivativesNoUpdate s a o
     let y := computeABADerivativesNoUpdateIn s a
     IsFwdDer s sε q w dq v tau (fun _ => 0) a.ddq x.2.dq x.2.dv x.2.dtau ∧ x.1.ddq = a.ddq ∧
     IsFwdDer s sε q w dq v tau (fun _ => 0) a.ddq y.ddq_dq y.ddq_dv y.Minv ∧ y.ddq = a.ddq) ∧
    (let a := abaWorldFext s d q v tau fext
     let x := computeABADerivativesNoUpdateFext s a fext o
     let y := computeABADerivativesNoUpdateFextIn s a fext
     IsFwdDer s sε q w dq v tau fext a.ddq x.2.dq x.2.dv x.2.dtau ∧ x.1.ddq = a.ddq ∧
     IsFwdDer s sε q w dq v tau fext a.ddq y.ddq_dq y.ddq_dv y.Minv ∧ y.ddq = a.ddq) := by
  have base : ∀ (fe : ℕ → Force K) (o : AbaDer K) {d1 d0 : Data K}, AW1 s q v (s.obf q v fe) tau s.n d1 → AwB s q v d1 →
      SameDer d d1 → d0 = { abaWorldRest s d1 with of := d0.of } →
      IsFwdDer s sε q w dq v tau fe d0.ddq (computeABADerivativesNoUpdateFext s d0 fe o).2.dq
        (computeABADerivativesNoUpdateFext s d0 fe o).2.dv (computeABADerivativesNoUpdateFext s d0 fe o).2.dtau ∧
      (computeABADerivativesNoUpdateFext s d0 fe o).1.ddq = d0.ddq := by
    intro fe o d1 d0 hd hb hs h0
    obtain ⟨k1, k2, k3, k4, k5, k6, k7⟩ := abaWorldRest_keep h.par d1
    have hb0 : AwB s q v d0 := by
      refine hb.congr ?_ ?_ ?_ ?_ ?_ ?_ <;> rw [h0]
      · exact k2
      · exact k1
      · exact k3
      · exact k4
      · exact k5
      · exact k6
    obtain ⟨e, e1, e2, ⟨e3, e4⟩, e5⟩ := abaDer_midOpt h hcr hq hR v tau fe o hd hb0 (by rw [h0]) (by rw [h0]; exact k1)
      (by rw [h0]) (by rw [h0])
    have z1 : d0.dtau_dq = d.dtau_dq := by rw [h0]; exact k7.1.trans hs.1
    have z2 : d0.dtau_dv = d.dtau_dv := by rw [h0]; exact k7.2.trans hs.2
    obtain ⟨a1, a2, a3, a4⟩ := abaDer_core h hf hcr hm hal hc hq hqε hR e2 (by rw [e3, z1]; exact zQ)
      (by rw [e4, z2]; exact zV) d0.Minv
    rw [e1]
    rw [a4, e5] at a1
    exact ⟨a1, a4.trans e5⟩
  constructor
  · intro a x y
    set d00 : Data K := { d with oa_gf := upd d.oa_gf 0 (-s.grav), of := upd d.of 0 0, u := tau } with hd00
    set d1 := fwd (abaWorldFwd1 s q v) s.n d00 with hd1
    have a1 : AW1 s q v (s.obf q v (fun _ => 0)) tau s.n d1 :=
      abaWorld_aw1 h hq v tau (d := d00) (upd_self d.oa_gf 0 _) rfl
    have b1 : AwB s q v d1 := awB_fwd1 h (fun i d => (abaWorldFwd1 s q v i d).of) d00 a1
    have k1 : SameDer d d1 :=
      fwd_ind (step := abaWorldFwd1 s q v) (n := s.n) (d := d00) (P := fun _ (e : Data K) => SameDer d e) h.par.1
        ⟨rfl, rfl⟩ (by
          rintro i e _ _ ⟨x1, x2⟩
          obtain ⟨⟨y1, y2⟩, -⟩ := fwd1_fields (s := s) (q := q) v i e
          exact ⟨y1.trans x1, y2.trans x2⟩)
    have key := fun o => base (fun _ => 0) o a1 b1 k1 (abaWorldEnd_keep h.par (abaWorldRest s d1))
    refine ⟨?_, ?_, ?_, ?_⟩
    · simp only [x, abaDer_nofextOpt]; exact (key o).1
    · simp only [x, abaDer_nofextOpt]; exact (key o).2
    · simp only [y, computeABADerivativesNoUpdateIn, abaDer_nofextOpt]; exact (key _).1
    · simp only [y, computeABADerivativesNoUpdateIn, abaDer_nofextOpt]; exact (key _).2
  · intro a x y
    set d00 : Data K := { d with oa_gf := upd d.oa_gf 0 (-s.grav), u := tau } with hd00
    set st1 := fun i (d : Data K) =>
      let d := abaWorldFwd1 s q v i d
      { d with of := upd d.of i (d.of i - (d.oMi i).actF (fext i)) } with hst1
    set d1 := fwd st1 s.n d00 with hd1
    have a1 : AW1 s q v (s.obf q v fext) tau s.n d1 :=
      abaWorldFext_aw1 h hq v tau fext (d := d00) (upd_self d.oa_gf 0 _) rfl
    have b1 : AwB s q v d1 := awB_fwd1 h (fun i d => upd (abaWorldFwd1 s q v i d).of i
      ((abaWorldFwd1 s q v i d).of i - ((abaWorldFwd1 s q v i d).oMi i).actF (fext i))) d00 a1
    have k1 : SameDer d d1 :=
      fwd_ind (step := st1) (n := s.n) (d := d00) (P := fun _ (e : Data K) => SameDer d e) h.par.1
        ⟨rfl, rfl⟩ (by
          rintro i e _ _ ⟨x1, x2⟩
          obtain ⟨⟨y1, y2⟩, -⟩ := fwd1_fields (s := s) (q := q) v i e
          exact ⟨y1.trans x1, y2.trans x2⟩)
    have key := fun o => base fext o (d0 := abaWorldFext s d q v tau fext) a1 b1 k1 rfl
    exact ⟨(key o).1, (key o).2, (key _).1, (key _).2⟩

/-- `data.ddq` is the acceleration `aba` returns. -/
theorem C54_ddq (h : s.Packed) (hf : s.Full) (hcr : crbaCheck s.par s.n = true) (hm : s.MassesOk) (hq : s.At q)
    (hR : s.Regular q) (d d' : Data K) (v tau : ℕ → K) (fext : ℕ → Force K) (o : AbaDer K) {r : ℕ} (hr : r < s.nv) :
    (computeABADerivatives s d q v tau o).1.ddq r = (abaLocal s d' q v tau).ddq r ∧
    (computeABADerivativesFext s d q v tau fext o).1.ddq r = (abaLocalFext s d' q v tau fext).ddq r := by
  have key : ∀ (fext : ℕ → Force K) c, c < s.nv →
      (rneaFext s Data.zero q v (computeABADerivativesFext s d q v tau fext o).1.ddq fext).tau c = tau c := by
    intro fext c hcv
    obtain ⟨e, e1, e2, -⟩ := abaDer_mid h hcr hq hR d v tau fext o
    obtain ⟨-, -, -, -, c5⟩ := abaDerBwd2_ok h hf ((crbaCheck_iff h.par).1 hcr) hm e2.ok
    have e3 : (computeABADerivativesFext s d q v tau fext o).1.ddq = e.ddq := by rw [e1]; exact c5
    have p := rneaFext_power h.wf Data.zero hq v e.ddq fext (Sys.unit c)
    rw [← e2.power, Sys.dotv_unit hcv, Sys.dotv_unit hcv] at p
    rw [e3]; exact p
  constructor
  · rw [abaDer_nofext]
    refine rnea_inj h hq hR (d := Data.zero) (d' := Data.zero) (v := v) (fun c hcv => ?_) hr
    rw [(C16_forward_inverse h hq hR d' Data.zero v tau fext hcv).1, ← key (fun _ => 0) c hcv]
    exact (rneaFext_zero h.wf Data.zero Data.zero hq v _ hcv).symm
  · refine rneaFext_inj h hq hR (d := Data.zero) (d' := Data.zero) (v := v) (fext := fext) (fun c hcv => ?_) hr
    rw [(C16_forward_inverse h hq hR d' Data.zero v tau fext hcv).2.2.1, key fext c hcv]

/-- `aba_partial_dtau` is the whole inverse of the joint-space inertia matrix, both triangles, whatever the joints. -/
theorem C54_minverse (h : s.Packed) (hf : s.Full) (hcr : crbaCheck s.par s.n = true) (hm : s.MassesOk) (hq : s.At q)
    (hR : s.Regular q) (d : Data K) (v tau : ℕ → K) (fext : ℕ → Force K) (o : AbaDer K) :
    InverseOf s.nv (fun r c => s.massForm q (Sys.unit r) (Sys.unit c)) (computeABADerivatives s d q v tau o).2.dtau ∧
    InverseOf s.nv (fun r c => s.massForm q (Sys.unit r) (Sys.unit c))
      (computeABADerivativesFext s d q v tau fext o).2.dtau := by
  have key : ∀ fext, InverseOf s.nv (fun r c => s.massForm q (Sys.unit r) (Sys.unit c))
      (computeABADerivativesFext s d q v tau fext o).2.dtau := by
    intro fext
    obtain ⟨e, e1, e2, -⟩ := abaDer_mid h hcr hq hR d v tau fext o
    obtain ⟨-, -, -, c4, -⟩ := abaDerBwd2_ok h hf ((crbaCheck_iff h.par).1 hcr) hm e2.ok
    have e3 : (computeABADerivativesFext s d q v tau fext o).2.dtau = mirrorUpper s.nv e.Minv := by
      rw [e1, ← c4]; rfl
    rw [e3]
    exact e2.inv.mirror h
  refine ⟨?_, key fext⟩
  rw [abaDer_nofext]; exact key _


/-! ## The conditions cannot be dropped -/

namespace Ex
/-- two pendulums about `x`, side by side, under gravity along `-z` -/
def sysT : Sys ℚ where
  n := 3
  par _ := 0
  pl _ := 1
  Y _ := iA
  jt _ := jRevolute 0
  iq i := i - 1
  iv i := i - 1
  nv := 2
  arm _ := 0
  grav := ⟨⟨0, 0, -10⟩, 0⟩

/-- `sysT` over dual numbers -/
def sysTε : Sys ℚ[ε] where
  n := 3
  par _ := 0
  pl _ := (1 : SE3 ℚ).map inl
  Y _ := iA.map inl
  jt _ := jRevolute 0
  iq i := i - 1
  iv i := i - 1
  nv := 2
  arm _ := inl 0
  grav := (⟨⟨0, 0, -10⟩, 0⟩ : Motion ℚ).map inl

theorem sysT_packed : sysT.Packed := by
  refine ⟨⟨by decide, fun _ h1 _ => h1⟩, fun i h1 hi => ?_, rfl⟩
  change i < 3 at hi
  interval_cases i <;> rfl

theorem sysT_full : sysT.Full := fun _ _ _ => by show 1 ≤ 1; decide

theorem sysT_at (q : ℕ → ℚ) : sysT.At q := ⟨fun _ _ _ => SE3.valid_one, fun _ _ _ => jRevolute_ok _ _⟩

theorem sysTε_at (q : ℕ → ℚ[ε]) : sysTε.At q :=
  ⟨fun _ _ _ => inl_valid SE3.valid_one, fun _ _ _ => jRevolute_ok _ _⟩

theorem sysT_along (q w : ℕ → ℚ) : sysT.Along sysTε q w w := by
  refine ⟨rfl, rfl, fun _ => rfl, fun _ => rfl, rfl, rfl, rfl, fun _ => rfl, fun _ => rfl, rfl, fun i h1 hi => ?_⟩
  exact jRevolute_kin _ _ _

theorem sysT_constS : sysT.ConstS sysTε := by
  refine ⟨fun i h1 hi k hk x => ?_, fun _ _ _ _ _ => rfl, fun _ _ _ _ _ => rfl⟩
  have : k < 1 := hk
  interval_cases k; rfl

theorem sysT_regular (q : ℕ → ℚ) : sysT.Regular q := by
  refine C16_regular_physical sysT_packed (fun i _ _ => iA_pd) (fun i _ _ x hx k hk => ?_) (fun r _ => le_rfl)
  have : k < 1 := hk
  interval_cases k
  simpa [comb, sum_range_succ, Sys.S, sysT, jRevolute, Sys.jnv, cols, V3.axis] using congrArg (fun m : Motion ℚ => m.ang.x) hx

theorem sysT_masses : sysT.MassesOk := fun _ _ _ => sysA_masses 1 (by decide) (by decide)
end Ex

/-- the hypotheses of `C54_aba_partial` on the robot, its state and the variation of it -/
structure DerSetting {K : Type u} [Field K] [LinearOrder K] [HasEps K] (s : Sys K) (sε : Sys K[ε]) (q w dq : ℕ → K) :
    Prop where
  packed : s.Packed
  full : s.Full
  check : crbaCheck s.par s.n = true
  masses : s.MassesOk
  along : s.Along sε q w dq
  at_ : s.At q
  atε : sε.At (perturb q dq)
  regular : s.Regular q

/-- the equation an `IsFwdDer` gives for one row -/
theorem IsFwdDer.row {v tau : ℕ → K} {fext : ℕ → Force K} {ddq : ℕ → K} {Dq Dv Dt : ℕ → ℕ → K}
    (h : IsFwdDer s sε q w dq v tau fext ddq Dq Dv Dt) (dε : Data K[ε]) (δv δτ : ℕ → K) {r : ℕ} (hr : r < s.nv) :
    ((rneaFext sε dε (perturb q dq) (perturb v δv)
      (perturb ddq (fun r => ∑ c ∈ range s.nv, (Dq r c * w c + Dv r c * δv c + Dt r c * δτ c)))
      (fun i => (fext i).map inl)).tau r).snd = δτ r := by
  rw [(h.iff dε δv δτ _).2 (fun _ _ => rfl) r hr]; simp [perturb]

theorem Ex.sysT_setting (q w : ℕ → ℚ) : DerSetting Ex.sysT Ex.sysTε q w w :=
  ⟨sysT_packed, sysT_full, by decide, sysT_masses, sysT_along q w, sysT_at q, sysTε_at _, sysT_regular q⟩

/-- output matrices of zeros -/
def AbaDer.zero : AbaDer ℚ := ⟨fun _ _ => 0, fun _ _ => 0, fun _ _ => 0⟩

set_option maxRecDepth 100000 in
/-- The entries between different branches of `data.dtau_dq` are work space that the call does not reset: when an earlier
computation on the same data left something there, the result is wrong. -/
theorem C54_stale_counterexample :
    let q : ℕ → ℚ := fun _ => 1
    let d : Data ℚ := { Data.zero with dtau_dq := fun _ _ => 1 }
    let x := computeABADerivatives Ex.sysT d q q q AbaDer.zero
    DerSetting Ex.sysT Ex.sysTε q q q ∧ Ex.sysT.ConstS Ex.sysTε ∧
      ¬ IsFwdDer Ex.sysT Ex.sysTε q q q q q (fun _ => 0) x.1.ddq x.2.dq x.2.dv x.2.dtau := by
  intro q d x
  refine ⟨Ex.sysT_setting q q, Ex.sysT_constS, fun h => ?_⟩
  have := h.row Data.zero (fun _ => 0) (fun _ => 0) (r := 0) (by decide)
  revert this
  decide +kernel

set_option maxRecDepth 100000 in
/-- The overloads without `q`, `v` and `tau` after `aba` with its default convention (local): `data.J` is not computed
by it, and the result is wrong. -/
theorem C54_after_local_counterexample :
    let q : ℕ → ℚ := fun _ => 2
    let a := abaLocal Ex.sysT Data.zero q q q
    let x := computeABADerivativesNoUpdate Ex.sysT a AbaDer.zero
    DerSetting Ex.sysT Ex.sysTε q q q ∧ Ex.sysT.ConstS Ex.sysTε ∧
      ¬ IsFwdDer Ex.sysT Ex.sysTε q q q q q (fun _ => 0) a.ddq x.2.dq x.2.dv x.2.dtau := by
  intro q d x
  refine ⟨Ex.sysT_setting q q, Ex.sysT_constS, fun h => ?_⟩
  have := h.row Data.zero (fun _ => 0) (fun _ => 0) (r := 0) (by decide)
  revert this
  decide +kernel

set_option maxRecDepth 100000 in
/-- With a `JointModelSphericalZYX`, whose motion subspace depends on the configuration, the result is wrong. -/
theorem C54_constS_counterexample :
    let q : ℕ → ℚ := fun k => if k = 1 then 2 else 0
    let v : ℕ → ℚ := fun _ => 1
    let x := computeABADerivatives Ex.sysZ Data.zero q v v AbaDer.zero
    DerSetting Ex.sysZ Ex.sysZε q v v ∧
      ¬ IsFwdDer Ex.sysZ Ex.sysZε q v v v v (fun _ => 0) x.1.ddq x.2.dq x.2.dv x.2.dtau := by
  intro q v x
  obtain ⟨a, b, c⟩ := Ex.sysZ_ok
  refine ⟨⟨a, b, by decide, fun _ _ _ => Ex.sysA_masses 1 (by decide) (by decide), Ex.sysZ_along q v, c q,
    ⟨fun _ _ _ => inl_valid SE3.valid_one, fun _ _ _ => jSphericalZYX_ok _⟩, ?_⟩, fun h => ?_⟩
  · refine C16_regular_physical a (fun i _ _ => Ex.iA_pd) (fun i _ _ x hx k hk => ?_) (fun r _ => le_rfl)
    have : k < 3 := hk
    have s0 : Ex.sysZ.S q 1 0 = ⟨0, ⟨-4 / 5, 0, -3 / 5⟩⟩ := by decide +kernel
    have s1 : Ex.sysZ.S q 1 1 = ⟨0, ⟨0, 1, 0⟩⟩ := by decide +kernel
    have s2 : Ex.sysZ.S q 1 2 = ⟨0, ⟨1, 0, 0⟩⟩ := by decide +kernel
    have hx' : x 0 • Ex.sysZ.S q 1 0 + x 1 • Ex.sysZ.S q 1 1 + x 2 • Ex.sysZ.S q 1 2 = 0 := by
      rw [← hx]
      show _ = ∑ k ∈ range 3, x k • Ex.sysZ.S q 1 k
      rw [sum_range_succ, sum_range_succ, sum_range_one]
    rw [s0, s1, s2] at hx'
    have e1 : x 0 * (-4 / 5) + x 1 * 0 + x 2 * 1 = 0 := congrArg (fun m : Motion ℚ => m.ang.x) hx'
    have e2 : x 0 * 0 + x 1 * 1 + x 2 * 0 = 0 := congrArg (fun m : Motion ℚ => m.ang.y) hx'
    have e3 : x 0 * (-3 / 5) + x 1 * 0 + x 2 * 0 = 0 := congrArg (fun m : Motion ℚ => m.ang.z) hx'
    interval_cases k <;> linarith
  have := h.row Data.zero (fun _ => 0) (fun _ => 0) (r := 0) (by decide)
  revert this
  decide +kernel

/-! ## The hypotheses of the theorems above are met -/

example := C54_fext_partial Ex.sysA_packed Ex.sysA_full (by decide) Ex.sysA_masses Ex.sysA_along Ex.sysA_constS Ex.sysA_at
  Ex.sysAε_at Ex.sysA_regular Data.zero Ex.wA' Ex.vA Ex.fA AbaDer.zero Ex.branchZero_zero Ex.branchZero_zero
example := C54_aba_partial Ex.sysA_packed Ex.sysA_full (by decide) Ex.sysA_masses Ex.sysA_along Ex.sysA_constS Ex.sysA_at
  Ex.sysAε_at Ex.sysA_regular Data.zero Ex.wA' Ex.vA AbaDer.zero Ex.branchZero_zero Ex.branchZero_zero
example := C54_in_data_partial Ex.sysA_packed Ex.sysA_full (by decide) Ex.sysA_masses Ex.sysA_along Ex.sysA_constS Ex.sysA_at
  Ex.sysAε_at Ex.sysA_regular Data.zero Ex.wA' Ex.vA Ex.fA Ex.branchZero_zero Ex.branchZero_zero
example := C54_after_aba_partial Ex.sysA_packed Ex.sysA_full (by decide) Ex.sysA_masses Ex.sysA_along Ex.sysA_constS Ex.sysA_at
  Ex.sysAε_at Ex.sysA_regular Data.zero Ex.wA' Ex.vA Ex.fA AbaDer.zero Ex.branchZero_zero Ex.branchZero_zero
example := fun r => C54_ddq Ex.sysA_packed Ex.sysA_full (by decide) Ex.sysA_masses Ex.sysA_at Ex.sysA_regular Data.zero
  Data.zero Ex.wA' Ex.vA Ex.fA AbaDer.zero (r := r)
example := C54_minverse Ex.sysA_packed Ex.sysA_full (by decide) Ex.sysA_masses Ex.sysA_at Ex.sysA_regular Data.zero
  Ex.wA' Ex.vA Ex.fA AbaDer.zero

end Pin
