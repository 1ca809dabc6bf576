import Verif.Algo.MinverseLemmas
import Verif.Props.ForwardDynamics
import Verif.Props.Cholesky

/-! # C23: inverse of the joint-space inertia matrix -/

namespace Pin
open Finset

section field
variable {K : Type*} [Field K] {s : Sys K}

theorem MinOk.symm {q : ℕ → K} {x : ℕ → ℕ → K} (hx : ∀ c < s.nv, ∀ w, s.massForm q w (x c) = s.dotv w (Sys.unit c))
    {r c : ℕ} (hr : r < s.nv) (hc : c < s.nv) : x c r = x r c := by
  have hd : ∀ (y : ℕ → K) {k : ℕ}, k < s.nv → s.dotv y (Sys.unit k) = y k := by
    intro y k hk
    rw [← Sys.dotv_unit hk y]
    exact sum_congr rfl fun c _ => mul_comm _ _
  have e1 := hx c hc (x r)
  have e2 := hx r hr (x c)
  rw [hd _ hc] at e1
  rw [hd _ hr] at e2
  rw [← e1, ← e2, s.massForm_symm]

theorem MinOk.inverse (h : s.Packed) {q : ℕ → K} {Mi : ℕ → ℕ → K} (hM : MinOk s q Mi) :
    InverseOf s.nv (fun r c => s.massForm q (Sys.unit r) (Sys.unit c)) (symUpper Mi) := by
  obtain ⟨x, hx, e⟩ := hM
  have es : ∀ r < s.nv, ∀ c < s.nv, symUpper Mi r c = x c r := by
    intro r hr c hc
    unfold symUpper
    split
    · exact e r c (by assumption) hc
    · rw [e c r (by omega) hr]; exact MinOk.symm hx hc hr
  have key : ∀ r < s.nv, ∀ c < s.nv, ∑ k ∈ range s.nv, s.massForm q (Sys.unit r) (Sys.unit k) * x c k
      = if r = c then 1 else 0 := by
    intro r hr c hc
    rw [← s.massForm_coord h.wf, hx c hc, Sys.dotv_unit hr]
    rfl
  intro r hr c hc
  constructor
  · rw [← key r hr c hc]
    exact sum_congr rfl fun k hk => by rw [es k (mem_range.1 hk) c hc]
  · have := key c hc r hr
    rw [if_congr (eq_comm (a := c) (b := r)) rfl rfl] at this
    rw [← this]
    refine sum_congr rfl fun k hk => ?_
    rw [es r hr k (mem_range.1 hk), s.massForm_symm, MinOk.symm hx hr (mem_range.1 hk), mul_comm]

/-- **`computeMinverse(model, data, q)`**: whatever `data` contains, the symmetric matrix whose upper triangle
is returned is the inverse of the joint-space inertia matrix. `hR`: the blocks that ABA inverts are
invertible (`C16_blocks`, `C16_regular_physical`, `C16_regular_armature`). -/
theorem C23_minverse (h : s.Packed) (hc : crbaCheck s.par s.n = true) {q : ℕ → K} (hq : s.At q) (hR : s.Regular q)
    (d : Data K) :
    InverseOf s.nv (fun r c => s.massForm q (Sys.unit r) (Sys.unit c)) (symUpper (computeMinverse s d q).Minv) :=
  (minv_ok h ((crbaCheck_iff h.par).1 hc) hq hR d).inverse h

theorem minv_after_world (h : s.Packed) (hc : Compact s.par s.n) {q : ℕ → K} (hq : s.At q) (hR : s.Regular q)
    {v t : ℕ → K} {p : ℕ → Force K} {d e : Data K} (hd : AW1 s q v p t s.n d)
    (hj : e.joints = (abaWorldRest s d).joints) (hJ : e.J = d.J) : MinOk s q (computeMinverseNoUpdate s e).Minv := by
  obtain ⟨G, g1, g2⟩ := (abaWorldRest_ok h hq hd).1
  have hA := artT_fst g1
  have eP : artI s (worP s d.J q v) = artI s (minP s d.J) := by funext c X; rfl
  rw [eP] at hA
  have hjd : ∀ i, 1 ≤ i → i < s.n → JdOk s d.J (fun i => (G i).1) i (e.joints i) := by
    intro i h1 hi
    rw [hj]
    exact ⟨(g2 i h1 hi).U, (g2 i h1 hi).Dinv, (g2 i h1 hi).UDinv⟩
  exact minvNoUpdate_ok h hc hq hR hd.J hA hJ hjd

theorem abaWorld_J (s : Sys K) (hp : ParOk s.par s.n) (d : Data K) :
    (abaWorldRest s d).J = d.J ∧ (bwd (abaWorldEnd s) s.n (abaWorldRest s d)).J = d.J := by
  have e1 : (bwd (abaWorldBwd s) s.n d).J = d.J :=
    bwd_ind (step := abaWorldBwd s) (n := s.n) (d := d) (P := fun _ (e : Data K) => e.J = d.J) hp.1 rfl
      (fun i e _ _ ih => (abaWorldBwd_keep (s := s) i e).1.trans ih)
  have e2 : (abaWorldRest s d).J = d.J :=
    fwd_ind (step := abaWorldFwd2 s) (n := s.n) (d := bwd (abaWorldBwd s) s.n d)
      (P := fun _ (e : Data K) => e.J = d.J) hp.1 e1 (fun i e _ _ ih => ih)
  exact ⟨e2, bwd_ind (step := abaWorldEnd s) (n := s.n) (d := abaWorldRest s d)
      (P := fun _ (e : Data K) => e.J = d.J) hp.1 e2 (fun i e _ _ ih => ih)⟩

/-- **`computeMinverse(model, data)` after `aba` with `Convention::WORLD`**, with or without external forces:
the same, for the configuration of the call to `aba`. -/
theorem C46_after_aba_partial (h : s.Packed) (hc : crbaCheck s.par s.n = true) {q : ℕ → K} (hq : s.At q)
    (hR : s.Regular q) (d : Data K) (v tau : ℕ → K) (fext : ℕ → Force K) :
    InverseOf s.nv (fun r c => s.massForm q (Sys.unit r) (Sys.unit c))
      (symUpper (computeMinverseNoUpdate s (abaWorld s d q v tau)).Minv) ∧
    InverseOf s.nv (fun r c => s.massForm q (Sys.unit r) (Sys.unit c))
      (symUpper (computeMinverseNoUpdate s (abaWorldFext s d q v tau fext)).Minv) := by
  have hc := (crbaCheck_iff h.par).1 hc
  constructor
  · have hd := abaWorld_aw1 h hq v tau (d := { d with oa_gf := upd d.oa_gf 0 (-s.grav), of := upd d.of 0 0, u := tau })
      (upd_self d.oa_gf 0 _) rfl
    refine (minv_after_world h hc hq hR hd ?_ ?_).inverse h
    · exact (abaWorld_end s h.par _).2.1
    · exact (abaWorld_J s h.par _).2
  · have hd := abaWorldFext_aw1 h hq v tau fext (d := { d with oa_gf := upd d.oa_gf 0 (-s.grav), u := tau })
      (upd_self d.oa_gf 0 _) rfl
    refine (minv_after_world h hc hq hR hd rfl ?_).inverse h
    exact (abaWorld_J s h.par _).1

/-- **Forward dynamics from the inverse**: the acceleration returned by `aba` is the inverse applied to the
torque left after the nonlinear effects. -/
theorem C23_aba (h : s.Packed) (hc : crbaCheck s.par s.n = true) {q : ℕ → K} (hq : s.At q) (hR : s.Regular q)
    (d d' d'' : Data K) (v tau : ℕ → K) {r : ℕ} (hr : r < s.nv) :
    (abaLocal s d q v tau).ddq r = ∑ c ∈ range s.nv, symUpper (computeMinverse s d' q).Minv r c
      * (tau c - (nonLinearEffects s d'' q v).nle c) := by
  have hI := C23_minverse h hc hq hR d'
  set a := (abaLocal s d q v tau).ddq
  have e : ∀ c < s.nv, tau c - (nonLinearEffects s d'' q v).nle c
      = ∑ k ∈ range s.nv, s.massForm q (Sys.unit c) (Sys.unit k) * a k := by
    intro c hcv
    have e1 := C12_affine h.wf d d'' hq v a (Sys.unit c)
    have e2 := (C16_forward_inverse h hq hR d d v tau (fun _ => 0) hcv).1
    rw [Sys.dotv_unit hcv, e2, Sys.dotv_unit hcv] at e1
    rw [← s.massForm_coord h.wf]
    linear_combination e1
  rw [sum_congr rfl (fun c hcv => by rw [e c (mem_range.1 hcv), mul_sum])]
  rw [sum_comm]
  have e2 : ∀ k ∈ range s.nv, ∑ c ∈ range s.nv, symUpper (computeMinverse s d' q).Minv r c
      * (s.massForm q (Sys.unit c) (Sys.unit k) * a k) = (if r = k then 1 else 0) * a k := by
    intro k hk
    rw [← (hI r hr k (mem_range.1 hk)).2, sum_mul]
    exact sum_congr rfl fun c _ => by ring
  rw [sum_congr rfl e2]
  simp [hr]

end field

section ordered
variable {K : Type*} [Field K] [LinearOrder K] [IsStrictOrderedRing K] [HasEps K] {s : Sys K}

/-- `computeMinverse` inverts the matrix of `crba`, in either convention, and agrees with
`cholesky::computeMinv`. -/
theorem C23_crba (h : s.Packed) (hc : crbaCheck s.par s.n = true) (hm : s.MassesOk) {q : ℕ → K} (hq : s.At q)
    (hR : s.Regular q) (d d' : Data K) (h0 : s.BranchZero d'.M) :
    InverseOf s.nv (symUpper (crbaWorld s d' q).M) (symUpper (computeMinverse s d q).Minv) ∧
    InverseOf s.nv (symUpper (crbaLocal s d' q).M) (symUpper (computeMinverse s d q).Minv) := by
  have hI := C23_minverse h hc hq hR d
  constructor
  · intro r hr c hcv
    refine ⟨(sum_congr rfl fun k hk => ?_).trans (hI r hr c hcv).1, (sum_congr rfl fun k hk => ?_).trans (hI r hr c hcv).2⟩
    · rw [(C13_entries h hc hm d' hq h0 hr (mem_range.1 hk)).1]
    · rw [(C13_entries h hc hm d' hq h0 (mem_range.1 hk) hcv).1]
  · intro r hr c hcv
    refine ⟨(sum_congr rfl fun k hk => ?_).trans (hI r hr c hcv).1, (sum_congr rfl fun k hk => ?_).trans (hI r hr c hcv).2⟩
    · rw [(C13_entries h hc hm d' hq h0 hr (mem_range.1 hk)).2]
    · rw [(C13_entries h hc hm d' hq h0 (mem_range.1 hk) hcv).2]

theorem C23_cholesky (h : s.Packed) (hf : s.Full) (hc : crbaCheck s.par s.n = true) (hm : s.MassesOk) {q : ℕ → K}
    (hq : s.At q) (hR : s.Regular q) (d d' : Data K) (h0 : s.BranchZero d'.M) (x : Chol K) (hU : s.TreeTri x.U)
    (hD : ∀ r < s.nv, (decompose s (crbaWorld s d' q).M x).D r ≠ 0) (X : ℕ → ℕ → K) {r c : ℕ} (hr : r < s.nv)
    (hcv : c < s.nv) :
    cholMinv s (decompose s (crbaWorld s d' q).M x) X r c = symUpper (computeMinverse s d q).Minv r c := by
  have hb := (C13_branch_zero h hc hm d' hq h0).1
  have hI := (C23_crba h hc hm hq hR d d' h0).1
  set M := symUpper (crbaWorld s d' q).M
  set B := symUpper (computeMinverse s d q).Minv
  set C := cholMinv s (decompose s (crbaWorld s d' q).M x) X
  have e1 : ∑ k ∈ range s.nv, C r k * (∑ l ∈ range s.nv, M k l * B l c) = C r c := by
    rw [sum_congr rfl (fun k hk => by rw [(hI k (mem_range.1 hk) c hcv).1])]
    simp [hcv]
  have e2 : ∑ l ∈ range s.nv, (∑ k ∈ range s.nv, C r k * M k l) * B l c = B r c := by
    rw [sum_congr rfl (fun l hl => by rw [(C22_computeMinv h hf hc _ hb x hU hD X hr (mem_range.1 hl)).2.1])]
    simp [hr]
  rw [← e1, ← e2]
  simp only [mul_sum, sum_mul]
  rw [sum_comm]
  exact sum_congr rfl fun _ _ => sum_congr rfl fun _ _ => by ring

end ordered

/-! ## the hypotheses are met -/

example : Ex.sysA.Packed ∧ Ex.sysA.Full ∧ crbaCheck Ex.sysA.par Ex.sysA.n = true ∧ Ex.sysA.MassesOk ∧
    Ex.sysA.At Ex.qA ∧ Ex.sysA.Regular Ex.qA ∧ Ex.sysA.BranchZero (Data.zero (K := ℚ)).M :=
  ⟨Ex.sysA_packed, Ex.sysA_full, by decide, Ex.sysA_masses, Ex.sysA_at, Ex.sysA_regular,
    fun _ _ _ _ _ _ _ _ _ _ _ _ => rfl⟩

/-! ## finding -/
namespace Ex
/-- two sliders on top of each other, along `x` -/
def sysP : Sys ℚ where
  n := 3
  par i := i - 1
  pl _ := 1
  Y _ := ⟨1, 0, ⟨1, 0, 1, 0, 0, 1⟩⟩
  jt _ := jPrismatic 0
  iq i := i - 1
  iv i := i - 1
  nv := 2
  arm _ := 0
  grav := 0
end Ex

set_option maxRecDepth 100000 in
/-- `computeMinverse(model, data)` "assumes that ABA has been called first" (`aba.hpp:112-115`), and `aba` uses
`Convention::LOCAL` by default (`aba.hpp:47, 86`). In that convention `aba` does not fill `data.J` and leaves
`U` in the joint frames, so the returned matrix is not the inverse. -/
theorem C46_counterexample :
    let d := abaLocal Ex.sysP Data.zero (fun _ => 0) (fun _ => 0) (fun _ => 0)
    crbaCheck Ex.sysP.par Ex.sysP.n = true ∧
    ¬ InverseOf Ex.sysP.nv (symUpper (crbaLocal Ex.sysP Data.zero (fun _ => 0)).M)
      (symUpper (computeMinverseNoUpdate Ex.sysP d).Minv) := by
  refine ⟨by decide, fun h => ?_⟩
  have := (h 0 (by decide) 1 (by decide)).1
  revert this
  decide +kernel

end Pin
