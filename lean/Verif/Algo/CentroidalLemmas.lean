import Verif.Algo.Centroidal
import Verif.Algo.ComJacLemmas
import Verif.Algo.CoriolisLemmas
import Verif.Spec.Centroidal

/-! # What `centroidal.hxx` computes -/

set_option linter.unusedSectionVars false

namespace Pin
open Finset
universe u

section field
variable {K : Type u} [Field K] {s : Sys K}

theorem Force.about_eq (f : Force K) (c : V3 K) : f.about c = f.atPoint c := by
  ext <;> simp [Force.about, Force.atPoint] <;> ring

/-- sum over the subtree of `i` of forces of the world, in the frame of `i` -/
noncomputable def Sys.lforce (s : Sys K) (q : ℕ → K) (f : ℕ → Force K) (i : ℕ) : Force K :=
  ∑ b ∈ subtree s.par s.n i, (s.oM q i).actInvF (f b)

theorem SE3.actInvF_sum' {ι : Type*} (t : Finset ι) (M : SE3 K) (g : ι → Force K) :
    M.actInvF (∑ i ∈ t, g i) = ∑ i ∈ t, M.actInvF (g i) := by
  classical
  induction t using Finset.induction_on with
  | empty => simp
  | insert a t ha ih => rw [sum_insert ha, sum_insert ha, SE3.actInvF_add, ih]

theorem lforce_T (hp : ParOk s.par s.n) {q : ℕ → K} (hq : s.At q) (f : ℕ → Force K) {c : ℕ} (h1 : 1 ≤ c) (hc : c < s.n) :
    (s.X q c).actF (s.lforce q f c) = ∑ b ∈ subtree s.par s.n c, (s.oM q (s.par c)).actInvF (f b) := by
  have hpc := hp.2 c h1 hc
  have hX := s.X_valid hq h1 hc
  have hA := s.oM_valid hp hq (s.par c) (by omega)
  unfold Sys.lforce
  rw [SE3.actF_sum]
  apply sum_congr rfl
  intro b _
  rw [s.oM_step h1 hpc, SE3.mul_actInvF hA hX, SE3.actF_actInvF hX]

theorem lforce_acc (hp : ParOk s.par s.n) {q : ℕ → K} (hq : s.At q) (f : ℕ → Force K) :
    IsAcc s.par s.n (fun c x => (s.X q c).actF x) (fun i => if i = 0 then 0 else (s.oM q i).actInvF (f i))
      (s.lforce q f) :=
  IsAcc.of_sum hp (fun i b => (s.oM q i).actInvF (f b)) (fun i h1 _ => if_neg (by omega))
    (fun _ h1 hc => lforce_T hp hq f h1 hc)

theorem lforce_root (hp : ParOk s.par s.n) {q : ℕ → K} (hq : s.At q) (f : ℕ → Force K) :
    ∑ c ∈ kids s.par s.n 0, (s.X q c).actF (s.lforce q f c) = ∑ b ∈ Ico 1 s.n, f b := by
  refine (sum_root hp (T := fun c x => (s.X q c).actF x)
    (fun i b => (s.oM q i).actInvF (f b)) (fun _ h1 hc => lforce_T hp hq f h1 hc)).trans ?_
  apply sum_congr rfl
  intro b _
  rw [s.oM_zero]
  simp

/-- momentum of body `b` in the world -/
def Sys.oh (s : Sys K) (q v : ℕ → K) (b : ℕ) : Force K := (s.oM q b).actF ((s.Y b).mul (s.V q v b))
/-- force on body `b` in the world -/
def Sys.odh (s : Sys K) (q v a : ℕ → K) (b : ℕ) : Force K :=
  (s.oM q b).actF ((s.Y b).mul (s.A 0 q v a b) + (s.V q v b).crossF ((s.Y b).mul (s.V q v b)))

/-- state in the first loop -/
structure CmF (s : Sys K) (q v : ℕ → K) (k : ℕ) (d : Data K) : Prop where
  liMi : ∀ i, 1 ≤ i → i < s.n → d.liMi i = s.X q i
  vel : ∀ i, 1 ≤ i → i < s.n → d.v i = s.V q v i
  mass : ∀ i, 1 ≤ i → i < k → d.mass i = (s.Y i).mass
  com : ∀ i, 1 ≤ i → i < k → d.com i = (s.Y i).mass • (s.Y i).lever
  h : ∀ i, 1 ≤ i → i < k → d.h i = (s.Y i).mul (s.V q v i)

theorem upd_lt_succ1 {α : Type*} {f F : ℕ → α} {k : ℕ} {x : α} (h : ∀ i, 1 ≤ i → i < k → f i = F i) (hx : x = F k) :
    ∀ i, 1 ≤ i → i < k + 1 → upd f k x i = F i := by
  intro i h1 hi
  by_cases e : i = k
  · subst e; rw [upd_self, hx]
  · rw [upd_ne _ _ e]; exact h i h1 (by omega)

theorem CmF.step {q v : ℕ → K} {i : ℕ} {d : Data K} (h1 : 1 ≤ i) (hi : i < s.n) (h : CmF s q v i d) :
    CmF s q v (i + 1) (cmFwd s i d) :=
  ⟨h.liMi, h.vel, upd_lt_succ1 h.mass rfl, upd_lt_succ1 h.com rfl,
    upd_lt_succ1 h.h (by show (s.Y i).mul (d.v i) = _; rw [h.vel i h1 hi])⟩

/-- state in the second loop -/
structure CmB (s : Sys K) (q v : ℕ → K) (k : ℕ) (d : Data K) : Prop where
  liMi : ∀ i, 1 ≤ i → i < s.n → d.liMi i = s.X q i
  mass : RAcc s.par s.n (fun _ x => x) (fun i => if i = 0 then 0 else (s.Y i).mass) s.subMass k d.mass
  com : RAcc s.par s.n (fun c x => (s.X q c).rot.mulVec x + s.subMass c • (s.X q c).trans)
    (fun i => if i = 0 then 0 else (s.Y i).mass • (s.Y i).lever) (s.lcom q) k d.com
  h : RAcc s.par s.n (fun c x => (s.X q c).actF x) (fun i => if i = 0 then 0 else (s.oM q i).actInvF (s.oh q v i))
    (s.lforce q (s.oh q v)) k d.h

theorem upd_push {α : Type*} [Add α] (f : ℕ → α) (p : ℕ) (t : α) (j : ℕ) :
    upd f p (f p + t) j = if j = p then f j + t else f j := by
  by_cases e : j = p
  · subst e; rw [upd_self, if_pos rfl]
  · rw [upd_ne _ _ e, if_neg e]

theorem CmB.step (hp : ParOk s.par s.n) {q v : ℕ → K} (hq : s.At q) {i : ℕ} {d : Data K}
    (h1 : 1 ≤ i) (hi : i < s.n) (h : CmB s q v (i + 1) d) : CmB s q v i (cmBwd s i d) := by
  have hpi := hp.2 i h1 hi
  have hm : d.mass i = s.subMass i := h.mass.val hp h1 hi (subMass_acc hp)
  have e : upd d.mass (s.par i) (d.mass (s.par i) + d.mass i) i = d.mass i := upd_ne _ _ (by omega)
  refine ⟨h.liMi, ?_, ?_, ?_⟩
  · exact h.mass.step hp h1 hi (subMass_acc hp) fun j _ => upd_push _ _ _ j
  · refine h.com.step hp h1 hi (lcom_acc hp hq) fun j _ => ?_
    have : (cmBwd s i d).com = upd d.com (s.par i) (d.com (s.par i) + ((d.liMi i).rot.mulVec (d.com i)
      + d.mass i • (d.liMi i).trans)) := by
      simp only [cmBwd, e]
    rw [this, upd_push, h.liMi i h1 hi, hm]
  · refine h.h.step hp h1 hi (lforce_acc hp hq _) fun j _ => ?_
    have : (cmBwd s i d).h = upd d.h (s.par i) (d.h (s.par i) + (d.liMi i).actF (d.h i)) := rfl
    rw [this, upd_push, h.liMi i h1 hi]

theorem CmF.toB (hp : ParOk s.par s.n) {q v : ℕ → K} (hq : s.At q) {d d' : Data K} (h : CmF s q v s.n d)
    (hl : d'.liMi = d.liMi) (hm : d'.mass = upd d.mass 0 0) (hc : d'.com = upd d.com 0 0) (hh : d'.h = upd d.h 0 0) :
    CmB s q v s.n d' := by
  refine ⟨by rw [hl]; exact h.liMi, RAcc.start _ ?_, RAcc.start _ ?_, RAcc.start _ ?_⟩
  all_goals intro i hi; rcases Nat.eq_zero_or_pos i with rfl | h1
  · rw [hm, upd_self, if_pos rfl]
  · rw [hm, upd_ne _ _ (by omega), if_neg (by omega)]; exact h.mass i h1 hi
  · rw [hc, upd_self, if_pos rfl]
  · rw [hc, upd_ne _ _ (by omega), if_neg (by omega)]; exact h.com i h1 hi
  · rw [hh, upd_self, if_pos rfl]
  · rw [hh, upd_ne _ _ (by omega), if_neg (by omega), h.h i h1 hi]
    unfold Sys.oh
    rw [SE3.actInvF_actF (s.oM_valid hp hq i hi)]

/-- what the root holds after the second loop -/
theorem CmB.root (hp : ParOk s.par s.n) {q v : ℕ → K} (hq : s.At q) {d : Data K} (h : CmB s q v 1 d) :
    d.mass 0 = s.subMass 0 ∧ d.com 0 = s.msum (s.pcom q) 0 ∧ d.h 0 = s.hsum q v := by
  refine ⟨?_, ?_, ?_⟩
  · rw [h.mass.root, if_pos rfl, zero_add, subMass_root hp]
  · rw [h.com.root, if_pos rfl, zero_add, lcom_root hp hq]
  · rw [h.h.root, if_pos rfl, zero_add, lforce_root hp hq]; rfl

/-- what `computeCentroidalMomentum` leaves -/
structure CmOut (s : Sys K) (q v : ℕ → K) (d : Data K) : Prop where
  mass : d.mass 0 = s.subMass 0
  com : d.com 0 = s.comPos q 0
  hg : d.hg = (s.hsum q v).atPoint (s.comPos q 0)
  vcom : d.vcom 0 = (s.subMass 0)⁻¹ • (s.hsum q v).lin

theorem computeCentroidalMomentumD_out (hp : ParOk s.par s.n) {q v : ℕ → K} (hq : s.At q) {d : Data K}
    (hl : ∀ i, 1 ≤ i → i < s.n → d.liMi i = s.X q i) (hv : ∀ i, 1 ≤ i → i < s.n → d.v i = s.V q v i) :
    CmOut s q v (computeCentroidalMomentumD s d) := by
  have hn := hp.1
  have h1 := fwd_ind (step := cmFwd s) (d := d) (P := fun k (d : Data K) => CmF s q v k d) hn
    ⟨hl, hv, fun i a b => by omega, fun i a b => by omega, fun i a b => by omega⟩ (fun i d h1 hi h => h.step h1 hi)
  have h2 := h1.toB hp hq (d' := { fwd (cmFwd s) s.n d with
    mass := upd (fwd (cmFwd s) s.n d).mass 0 0, com := upd (fwd (cmFwd s) s.n d).com 0 0,
    h := upd (fwd (cmFwd s) s.n d).h 0 0 }) rfl rfl rfl rfl
  have h3 := bwd_ind (step := cmBwd s) (P := fun k (d : Data K) => CmB s q v k d) hn h2
    (fun i d h1 hi h => h.step hp hq h1 hi)
  obtain ⟨m, c, hh⟩ := h3.root hp hq
  unfold computeCentroidalMomentumD
  dsimp only
  generalize bwd (cmBwd s) s.n _ = D at m c hh
  have c' : (D.com 0).divS (D.mass 0) = s.comPos q 0 := by rw [m, c, V3.divS_eq]; rfl
  refine ⟨m, ?_, ?_, ?_⟩
  · dsimp only; rw [upd_self, c']
  · dsimp only; rw [upd_self, c', hh, Force.about_eq]
  · dsimp only; rw [upd_self, hh, m, V3.divS_eq]; rfl

/-- state in the second loop of `computeCentroidalMomentumTimeVariation` -/
structure DcmB (s : Sys K) (q v a : ℕ → K) (k : ℕ) (d : Data K) : Prop where
  cm : CmB s q v k d
  f : RAcc s.par s.n (fun c x => (s.X q c).actF x) (fun i => if i = 0 then 0 else (s.oM q i).actInvF (s.odh q v a i))
    (s.lforce q (s.odh q v a)) k d.f

theorem DcmB.step (hp : ParOk s.par s.n) {q v a : ℕ → K} (hq : s.At q) {i : ℕ} {d : Data K}
    (h1 : 1 ≤ i) (hi : i < s.n) (h : DcmB s q v a (i + 1) d) : DcmB s q v a i (dcmBwd s i d) := by
  have hc := h.cm.step hp hq h1 hi
  refine ⟨⟨hc.liMi, hc.mass, hc.com, hc.h⟩, ?_⟩
  refine h.f.step hp h1 hi (lforce_acc hp hq _) fun j _ => ?_
  have : (dcmBwd s i d).f = upd d.f (s.par i) (d.f (s.par i) + (d.liMi i).actF (d.f i)) := rfl
  rw [this, upd_push, h.cm.liMi i h1 hi]

theorem computeCentroidalMomentumTimeVariationD_out (hp : ParOk s.par s.n) {q v a : ℕ → K} (hq : s.At q) {d : Data K}
    (hl : ∀ i, 1 ≤ i → i < s.n → d.liMi i = s.X q i) (hv : ∀ i, 1 ≤ i → i < s.n → d.v i = s.V q v i)
    (ha : ∀ i, 1 ≤ i → i < s.n → d.a i = s.A 0 q v a i) :
    CmOut s q v (computeCentroidalMomentumTimeVariationD s d) ∧
      (computeCentroidalMomentumTimeVariationD s d).dhg = (s.dhsum q v a).atPoint (s.comPos q 0) := by
  have hn := hp.1
  have h1 := fwd_ind (step := dcmFwd s) (d := d) (P := fun k (d : Data K) => CmF s q v k d ∧
      (∀ i, 1 ≤ i → i < s.n → d.a i = s.A 0 q v a i) ∧
      ∀ i, 1 ≤ i → i < k → d.f i = (s.oM q i).actInvF (s.odh q v a i)) hn
    ⟨⟨hl, hv, fun i a b => by omega, fun i a b => by omega, fun i a b => by omega⟩, ha, fun i a b => by omega⟩
    (fun i d h1 hi ⟨h, ha, hf⟩ => by
      have hc := h.step h1 hi
      refine ⟨⟨hc.liMi, hc.vel, hc.mass, hc.com, hc.h⟩, ha, upd_lt_succ1 hf ?_⟩
      show (s.Y i).mul (d.a i) + (d.v i).crossF ((cmFwd s i d).h i) = _
      rw [hc.h i h1 (by omega), ha i h1 hi, h.vel i h1 hi]
      unfold Sys.odh
      rw [SE3.actInvF_actF (s.oM_valid hp hq i hi)])
  obtain ⟨h1, -, hf⟩ := h1
  have h2 := h1.toB hp hq (d' := { fwd (dcmFwd s) s.n d with
    mass := upd (fwd (dcmFwd s) s.n d).mass 0 0, com := upd (fwd (dcmFwd s) s.n d).com 0 0,
    h := upd (fwd (dcmFwd s) s.n d).h 0 0, f := upd (fwd (dcmFwd s) s.n d).f 0 0 }) rfl rfl rfl rfl
  have h3 := bwd_ind (step := dcmBwd s) (P := fun k (d : Data K) => DcmB s q v a k d) hn
    ⟨h2, RAcc.start _ (by
      intro i hi
      rcases Nat.eq_zero_or_pos i with rfl | h1
      · rw [if_pos rfl]; exact upd_self (fwd (dcmFwd s) s.n d).f 0 0
      · rw [if_neg (by omega)]; exact (upd_ne _ _ (by omega)).trans (hf i h1 hi))⟩
    (fun i d h1 hi h => h.step hp hq h1 hi)
  obtain ⟨m, c, hh⟩ := h3.cm.root hp hq
  have hf0 := h3.f.root
  rw [if_pos rfl, zero_add, lforce_root hp hq] at hf0
  unfold computeCentroidalMomentumTimeVariationD
  dsimp only
  generalize bwd (dcmBwd s) s.n _ = D at m c hh hf0
  have c' : (D.com 0).divS (D.mass 0) = s.comPos q 0 := by rw [m, c, V3.divS_eq]; rfl
  refine ⟨⟨m, ?_, ?_, ?_⟩, ?_⟩
  · dsimp only; rw [upd_self, c']
  · dsimp only; rw [upd_self, c', hh, Force.about_eq]
  · dsimp only; rw [upd_self, hh, m, V3.divS_eq]; rfl
  · rw [upd_self, c', hf0, Force.about_eq]; rfl

/-- product of a joint velocity with columns that are sums over subtrees -/
theorem cols_mul (h : s.Packed) {L : ℕ → Motion K →ₗ[K] Force K} {x : ℕ → ℕ → Motion K} {A : ℕ → Force K}
    (hA : ∀ i, 1 ≤ i → i < s.n → ∀ k, k < s.jnv i → A (s.iv i + k) = ∑ b ∈ subtree s.par s.n i, L b (x i k))
    (v : ℕ → K) :
    ∑ r ∈ range s.nv, v r • A r
      = ∑ b ∈ Ico 1 s.n, L b (∑ i ∈ supp s.par s.n b, comb (x i) (s.jnv i) (s.vs v i)) := by
  classical
  rw [← h.sum_seg (fun r => v r • A r)]
  have e1 : ∀ i ∈ Ico 1 s.n, ∑ k ∈ range (s.jnv i), v (s.iv i + k) • A (s.iv i + k)
      = ∑ b ∈ subtree s.par s.n i, L b (comb (x i) (s.jnv i) (s.vs v i)) := by
    intro i hi
    rw [mem_Ico] at hi
    have : ∀ k ∈ range (s.jnv i), v (s.iv i + k) • A (s.iv i + k)
        = ∑ b ∈ subtree s.par s.n i, L b (s.vs v i k • x i k) := by
      intro k hk
      rw [hA i hi.1 hi.2 k (mem_range.1 hk), smul_sum]
      exact sum_congr rfl fun b _ => (map_smul ..).symm
    rw [sum_congr rfl this, sum_comm]
    exact sum_congr rfl fun b _ => (map_sum ..).symm
  rw [sum_congr rfl e1]
  simp only [map_sum]
  apply sum_comm'
  intro i b
  rw [mem_Ico, mem_Ico, mem_subtree, mem_supp]
  tauto

/-- a matrix as a linear map -/
def M6.lin (m : M6 K) : Motion K →ₗ[K] Force K where
  toFun x := m.mulMF x
  map_add' a b := M6.mulMF_add ..
  map_smul' c a := M6.mulMF_smul ..
theorem M6.lin_apply (m : M6 K) (x : Motion K) : m.lin x = m.mulMF x := rfl

theorem oh_eq {q : ℕ → K} (hp : ParOk s.par s.n) (hq : s.At q) (v : ℕ → K) {b : ℕ} (hb : b < s.n) :
    s.oh q v b = (s.oI q b).mulMF (s.oV q v b) := by
  have hR := s.oM_valid hp hq b hb
  unfold Sys.oh Sys.oI Sys.oV
  rw [Inertia.matrix_mulMF, Inertia.act_mul hR, SE3.actInv_act hR]

theorem hsum_eq {q : ℕ → K} (hp : ParOk s.par s.n) (hq : s.At q) (v : ℕ → K) :
    s.hsum q v = ∑ b ∈ Ico 1 s.n, (s.oI q b).mulMF (s.oV q v b) :=
  sum_congr rfl fun _ hb => oh_eq hp hq v (mem_Ico.1 hb).2

theorem Ag_mul (h : s.Packed) {q : ℕ → K} (hq : s.At q) {A : ℕ → Force K}
    (hA : ∀ i, 1 ≤ i → i < s.n → ∀ k, k < s.jnv i → A (s.iv i + k) = (s.oYm q i).mulMF (s.Jc q i k)) (v : ℕ → K) :
    ∑ r ∈ range s.nv, v r • A r = s.hsum q v := by
  rw [cols_mul h (L := fun b => (s.oI q b).lin) (x := fun i k => s.Jc q i k) (by
    intro i i1 hi k hk
    rw [hA i i1 hi k hk]; unfold Sys.oYm; rw [M6.sum_mulMF]; rfl), hsum_eq h.par hq]
  apply sum_congr rfl
  intro b hb
  rw [M6.lin_apply, Sys.oV_eq h.par hq v b (mem_Ico.1 hb).2]
  congr 1
  exact sum_congr rfl fun i _ => comb_Jc q v i

theorem Force.sum_lin {ι : Type*} (t : Finset ι) (g : ι → Force K) : (∑ i ∈ t, g i).lin = ∑ i ∈ t, (g i).lin := by
  classical
  induction t using Finset.induction_on with
  | empty => rfl
  | insert a t ha ih => rw [sum_insert ha, sum_insert ha, ← ih]; rfl

theorem hsum_lin (hp : ParOk s.par s.n) {q : ℕ → K} (v : ℕ → K) :
    (s.hsum q v).lin = s.msum (s.wcom q v) 0 := by
  unfold Sys.hsum Sys.msum
  rw [Force.sum_lin, subtree_root hp]
  apply sum_congr rfl
  intro b _
  unfold Sys.wcom
  ext <;> simp [SE3.actF, Inertia.mul] <;> ring

/-- shifting to a point as a linear map -/
def aboutLin (c : V3 K) : Force K →ₗ[K] Force K where
  toFun f := f.atPoint c
  map_add' a b := by ext <;> simp [Force.atPoint] <;> ring
  map_smul' k a := by ext <;> simp [Force.atPoint] <;> ring

theorem atPoint_sum {ι : Type*} (t : Finset ι) (k : ι → K) (g : ι → Force K) (c : V3 K) :
    ∑ i ∈ t, k i • (g i).atPoint c = (∑ i ∈ t, k i • g i).atPoint c := by
  have : ∀ f : Force K, f.atPoint c = aboutLin c f := fun _ => rfl
  simp only [this, map_sum, map_smul]
end field

variable {K : Type u} [Field K] [LinearOrder K] [IsStrictOrderedRing K] [HasEps K] {s : Sys K}

theorem mulCols_about (c : V3 K) (A : ℕ → Force K) (n : ℕ) (v : ℕ → K) :
    mulCols n (aboutCols n A c) v = (∑ r ∈ range n, v r • A r).atPoint c := by
  rw [← atPoint_sum]
  unfold mulCols
  apply sum_congr rfl
  intro r hr
  unfold aboutCols
  rw [if_pos (mem_range.1 hr), Force.about_eq]

/-- the inertia accumulation with the universe -/
theorem oYm_acc0 (hp : ParOk s.par s.n) (q : ℕ → K) :
    IsAcc s.par s.n (fun _ x => x) (fun i => if i = 0 then 0 else s.oI q i) (s.oYm q) :=
  IsAcc.of_sum hp (fun _ b => s.oI q b) (fun i h1 _ => if_neg (by omega)) (fun _ _ _ => rfl)

theorem oYm_root (hp : ParOk s.par s.n) (q : ℕ → K) : ∑ c ∈ kids s.par s.n 0, s.oYm q c = s.oYm q 0 := by
  unfold Sys.oYm
  rw [subtree_root hp]
  exact sum_root hp (T := fun _ x => x) (fun _ b => s.oI q b) (fun _ _ _ => rfl)

/-- composite inertias: state in a backward loop -/
structure YB (s : Sys K) (q : ℕ → K) (k : ℕ) (Y : ℕ → Inertia K) : Prop where
  mass : ∀ i, i < s.n → Inertia.MassOk (Y i).mass
  acc : RAcc s.par s.n (fun _ x => x) (fun i => if i = 0 then 0 else s.oI q i) (s.oYm q) k (fun i => (Y i).matrix)

theorem YB.start (hm : s.MassesOk) {q : ℕ → K} {Y : ℕ → Inertia K} (h0 : Y 0 = 0)
    (h : ∀ i, 1 ≤ i → i < s.n → Y i = (s.Y i).act (s.oM q i)) : YB s q s.n Y := by
  refine ⟨?_, RAcc.start _ ?_⟩
  all_goals intro i hi; rcases Nat.eq_zero_or_pos i with rfl | h1
  · rw [h0]; exact Or.inl rfl
  · rw [h i h1 hi]; exact hm i h1 hi
  · rw [h0, if_pos rfl]
    ext <;> simp [Inertia.matrix, M3.alphaSkew, Sym3.subAlphaSkewSquare, Sym3.matrix]
  · rw [h i h1 hi, if_neg (by omega)]; rfl

theorem YB.val (hp : ParOk s.par s.n) {q : ℕ → K} {Y : ℕ → Inertia K} {i : ℕ} (h1 : 1 ≤ i) (hi : i < s.n)
    (h : YB s q (i + 1) Y) : (Y i).matrix = s.oYm q i := h.acc.val hp h1 hi (oYm_acc0 hp q)

theorem YB.step (hp : ParOk s.par s.n) {q : ℕ → K} {Y : ℕ → Inertia K} {i : ℕ} (h1 : 1 ≤ i) (hi : i < s.n)
    (h : YB s q (i + 1) Y) : YB s q i (upd Y (s.par i) (Inertia.addAssign (Y (s.par i)) (Y i))) := by
  have hpi := hp.2 i h1 hi
  have hadd := Inertia.addAssign_matrix (h.mass (s.par i) (by omega)) (h.mass i hi)
  refine ⟨?_, h.acc.step hp h1 hi (oYm_acc0 hp q) ?_⟩
  · intro j hj
    by_cases e : j = s.par i
    · subst e; rw [upd_self]; exact hadd.2
    · rw [upd_ne _ _ e]; exact h.mass j hj
  · intro j _
    by_cases e : j = s.par i
    · subst e; rw [upd_self, if_pos rfl]; exact hadd.1
    · rw [upd_ne _ _ e, if_neg e]

theorem YB.root (hp : ParOk s.par s.n) {q : ℕ → K} {Y : ℕ → Inertia K} (h : YB s q 1 Y) :
    (Y 0).matrix = s.oYm q 0 := by
  have := h.acc.root
  rw [if_pos rfl, zero_add, oYm_root hp] at this
  exact this

/-- state in the backward loop of `ccrba` -/
structure CcB (s : Sys K) (q : ℕ → K) (k : ℕ) (d : Data K) : Prop where
  oMi : ∀ i, 1 ≤ i → i < s.n → d.oMi i = s.oM q i ∧ (d.joints i).S = s.S q i
  Y : YB s q k d.oYcrb
  J : ∀ i, 1 ≤ i → k ≤ i → i < s.n → ∀ l, l < s.jnv i → d.J (s.iv i + l) = s.Jc q i l
  Ag0 : ∀ i, 1 ≤ i → i < k → i < s.n → ∀ l, l < s.jnv i → d.Ag (s.iv i + l) = 0
  Ag : ∀ i, 1 ≤ i → k ≤ i → i < s.n → ∀ l, l < s.jnv i → d.Ag (s.iv i + l) = (s.oYm q i).mulMF (s.Jc q i l)

theorem CcB.step (h : s.Packed) {q : ℕ → K} {i : ℕ} {d : Data K} (h1 : 1 ≤ i) (hi : i < s.n)
    (ih : CcB s q (i + 1) d) : CcB s q i (ccrbaBwd s i d) := by
  have hp := h.par
  obtain ⟨e1, e2⟩ := ih.oMi i h1 hi
  have eJ : (ccrbaBwd s i d).J = putSeg d.J (s.iv i) (s.jnv i) (fun k => s.Jc q i k) := by
    unfold ccrbaBwd; dsimp only; rw [e1, e2]; rfl
  have eA : (ccrbaBwd s i d).Ag = putSeg d.Ag (s.iv i) (s.jnv i) (fun k => d.Ag (s.iv i + k)
    + (d.oYcrb i).mul ((ccrbaBwd s i d).J (s.iv i + k))) := rfl
  refine ⟨ih.oMi, ih.Y.step hp h1 hi, ?_, ?_, ?_⟩
  · intro j j1 hj hjn l hl
    rw [eJ]
    by_cases e : j = i
    · subst e; rw [putSeg_at _ _ hl]
    · rw [h.putSeg_ne _ _ h1 hi j1 hjn hl e]; exact ih.J j j1 (by omega) hjn l hl
  · intro j j1 hj hjn l hl
    rw [eA, h.putSeg_ne _ _ h1 hi j1 hjn hl (by omega)]
    exact ih.Ag0 j j1 (by omega) hjn l hl
  · intro j j1 hj hjn l hl
    rw [eA]
    by_cases e : j = i
    · subst e
      rw [putSeg_at _ _ hl, eJ, putSeg_at _ _ hl, ih.Ag0 j j1 (by omega) hjn l hl, zero_add, ← Inertia.matrix_mulMF,
        ih.Y.val hp h1 hi]
    · rw [h.putSeg_ne _ _ h1 hi j1 hjn hl e]; exact ih.Ag j j1 (by omega) hjn l hl

/-- what the maps leave: columns at the world origin before the shift -/
structure CcOut (s : Sys K) (q : ℕ → K) (A : ℕ → Force K) (Y0 : Inertia K) : Prop where
  Y0 : Y0.matrix = s.oYm q 0
  Ag : ∀ i, 1 ≤ i → i < s.n → ∀ l, l < s.jnv i → A (s.iv i + l) = (s.oYm q i).mulMF (s.Jc q i l)

/-- data before the shift to the centre of mass in `computeCentroidalMap` -/
def ccrbaCore (s : Sys K) (d : Data K) (q : ℕ → K) : Data K :=
  let d := forwardKinematics s d q
  let d := { d with oYcrb := upd d.oYcrb 0 0 }
  let d := fwd (fun i (d : Data K) => { d with oYcrb := upd d.oYcrb i ((s.Y i).act (d.oMi i)) }) s.n d
  let d := { d with Ag := fun _ => 0 }
  bwd (ccrbaBwd s) s.n d

theorem ccrbaCore_ok (h : s.Packed) (hm : s.MassesOk) (d : Data K) (q : ℕ → K) :
    CcB s q 1 (ccrbaCore s d q) := by
  have hp := h.par
  unfold ccrbaCore
  dsimp only
  have h0 := fk0_ok hp d q
  generalize forwardKinematics s d q = d1 at h0
  have hF := fwd_ind (step := fun i (d : Data K) => { d with oYcrb := upd d.oYcrb i ((s.Y i).act (d.oMi i)) })
    (d := { d1 with oYcrb := upd d1.oYcrb 0 0 })
    (P := fun k (d : Data K) => (∀ i, 1 ≤ i → i < s.n → d.oMi i = s.oM q i ∧ (d.joints i).S = s.S q i) ∧
      d.oYcrb 0 = 0 ∧ ∀ i, 1 ≤ i → i < k → d.oYcrb i = (s.Y i).act (s.oM q i)) hp.1
    ⟨fun i h1 hi => ⟨(h0 i h1 hi).2.1, (h0 i h1 hi).2.2.1⟩, upd_self d1.oYcrb 0 0, fun i a b => by omega⟩
    (fun i d h1 hi ⟨a, b, c⟩ => ⟨a, (upd_ne _ _ (by omega)).trans b,
      upd_lt_succ1 c (by rw [(a i h1 hi).1])⟩)
  obtain ⟨a, b, c⟩ := hF
  exact bwd_ind (step := ccrbaBwd s) (P := fun k (d : Data K) => CcB s q k d) hp.1
    ⟨a, YB.start hm b c, fun i a b c => by omega, fun i _ _ _ l _ => rfl, fun i a b c => by omega⟩
    (fun i d h1 hi ih => ih.step h h1 hi)

/-- sum of the variations of the inertias over a subtree -/
noncomputable def Sys.dYm (s : Sys K) (q v : ℕ → K) (i : ℕ) : M6 K :=
  ∑ b ∈ subtree s.par s.n i, ((s.Y b).act (s.oM q b)).variation (s.oV q v b)

theorem dYm_acc (hp : ParOk s.par s.n) (q v : ℕ → K) :
    IsAcc s.par s.n (fun _ x => x) (fun b => ((s.Y b).act (s.oM q b)).variation (s.oV q v b)) (s.dYm q v) :=
  IsAcc.of_sum hp (fun _ b => ((s.Y b).act (s.oM q b)).variation (s.oV q v b)) (fun i _ _ => rfl) (fun _ _ _ => rfl)

/-- state in the backward loop of `dccrba` -/
structure DcB (s : Sys K) (q v : ℕ → K) (k : ℕ) (d : Data K) : Prop where
  oMi : ∀ i, 1 ≤ i → i < s.n → d.oMi i = s.oM q i ∧ (d.joints i).S = s.S q i
  ov : ∀ i, 1 ≤ i → i < s.n → d.ov i = s.oV q v i
  Y : YB s q k d.oYcrb
  dY : PAcc s.par s.n (fun _ x => x) (fun b => ((s.Y b).act (s.oM q b)).variation (s.oV q v b)) k d.doYcrb
  J : ∀ i, 1 ≤ i → k ≤ i → i < s.n → ∀ l, l < s.jnv i → d.J (s.iv i + l) = s.Jc q i l
  dJ : ∀ i, 1 ≤ i → k ≤ i → i < s.n → ∀ l, l < s.jnv i → d.dJ (s.iv i + l) = s.dJc q v i l
  Ag : ∀ i, 1 ≤ i → k ≤ i → i < s.n → ∀ l, l < s.jnv i → d.Ag (s.iv i + l) = (s.oYm q i).mulMF (s.Jc q i l)
  dAg : ∀ i, 1 ≤ i → k ≤ i → i < s.n → ∀ l, l < s.jnv i →
    d.dAg (s.iv i + l) = (s.dYm q v i).mulMF (s.Jc q i l) + (s.oYm q i).mulMF (s.dJc q v i l)

theorem dccrbaBwd_eqs (i : ℕ) (d : Data K) :
    (dccrbaBwd s i d).oMi = d.oMi ∧ (dccrbaBwd s i d).joints = d.joints ∧ (dccrbaBwd s i d).ov = d.ov ∧
    (dccrbaBwd s i d).oYcrb = upd d.oYcrb (s.par i) (Inertia.addAssign (d.oYcrb (s.par i)) (d.oYcrb i)) ∧
    (dccrbaBwd s i d).doYcrb = (if s.par i > 0 then upd d.doYcrb (s.par i) (d.doYcrb (s.par i) + d.doYcrb i)
      else d.doYcrb) ∧
    (dccrbaBwd s i d).J = putSeg d.J (s.iv i) (s.jnv i) (fun k => (d.oMi i).act ((d.joints i).S k)) ∧
    (dccrbaBwd s i d).dJ = putSeg d.dJ (s.iv i) (s.jnv i)
      (fun k => (d.ov i).cross ((dccrbaBwd s i d).J (s.iv i + k))) ∧
    (dccrbaBwd s i d).Ag = putSeg d.Ag (s.iv i) (s.jnv i)
      (fun k => (d.oYcrb i).mul ((dccrbaBwd s i d).J (s.iv i + k))) ∧
    (∀ l, (dccrbaBwd s i d).dAg l = putSeg (putSeg d.dAg (s.iv i) (s.jnv i)
        (fun k => (d.doYcrb i).mulMF ((dccrbaBwd s i d).J (s.iv i + k)))) (s.iv i) (s.jnv i)
      (fun k => putSeg d.dAg (s.iv i) (s.jnv i)
        (fun k => (d.doYcrb i).mulMF ((dccrbaBwd s i d).J (s.iv i + k))) (s.iv i + k)
        + (d.oYcrb i).mul ((dccrbaBwd s i d).dJ (s.iv i + k))) l) := by
  unfold dccrbaBwd
  by_cases hp : s.par i > 0
  · simp only [hp, if_true, implies_true, and_self]
  · simp only [hp, if_false, implies_true, and_self]

theorem DcB.step (h : s.Packed) {q v : ℕ → K} {i : ℕ} {d : Data K} (h1 : 1 ≤ i) (hi : i < s.n)
    (ih : DcB s q v (i + 1) d) : DcB s q v i (dccrbaBwd s i d) := by
  have hp := h.par
  have hpi := hp.2 i h1 hi
  obtain ⟨e1, e2⟩ := ih.oMi i h1 hi
  have hdY := ih.dY.eq_acc hp (dYm_acc hp q v) i h1 hi le_rfl
  obtain ⟨r1, r2, r3, r4, r5, r6, r7, r8, r9⟩ := dccrbaBwd_eqs (s := s) i d
  have hJ : ∀ j, 1 ≤ j → i ≤ j → j < s.n → ∀ l, l < s.jnv j → (dccrbaBwd s i d).J (s.iv j + l) = s.Jc q j l := by
    intro j j1 hj hjn l hl
    rw [r6]
    by_cases e : j = i
    · subst e; rw [putSeg_at _ _ hl, e1, e2]; rfl
    · rw [h.putSeg_ne _ _ h1 hi j1 hjn hl e]; exact ih.J j j1 (by omega) hjn l hl
  have hdJ : ∀ j, 1 ≤ j → i ≤ j → j < s.n → ∀ l, l < s.jnv j → (dccrbaBwd s i d).dJ (s.iv j + l) = s.dJc q v j l := by
    intro j j1 hj hjn l hl
    rw [r7]
    by_cases e : j = i
    · subst e; rw [putSeg_at _ _ hl, hJ j j1 le_rfl hjn l hl, ih.ov j j1 hjn]; rfl
    · rw [h.putSeg_ne _ _ h1 hi j1 hjn hl e]; exact ih.dJ j j1 (by omega) hjn l hl
  refine ⟨?_, ?_, ?_, ?_, hJ, hdJ, ?_, ?_⟩
  · rw [r1, r2]; exact ih.oMi
  · rw [r3]; exact ih.ov
  · rw [r4]; exact ih.Y.step hp h1 hi
  · apply PAcc.step hp h1 hi ih.dY
    intro j hj1
    rw [r5]
    by_cases hjp : j = s.par i
    · subst hjp; rw [if_pos rfl, if_pos (by omega), upd_self]
    · rw [if_neg hjp]
      split
      · rw [upd_ne _ _ hjp]
      · rfl
  · intro j j1 hj hjn l hl
    rw [r8]
    by_cases e : j = i
    · subst e
      rw [putSeg_at _ _ hl, hJ j j1 le_rfl hjn l hl, ← Inertia.matrix_mulMF, ih.Y.val hp h1 hi]
    · rw [h.putSeg_ne _ _ h1 hi j1 hjn hl e]; exact ih.Ag j j1 (by omega) hjn l hl
  · intro j j1 hj hjn l hl
    rw [r9]
    by_cases e : j = i
    · subst e
      rw [putSeg_at _ _ hl, putSeg_at _ _ hl, hJ j j1 le_rfl hjn l hl, hdJ j j1 le_rfl hjn l hl,
        ← Inertia.matrix_mulMF, ih.Y.val hp h1 hi, hdY]
    · rw [h.putSeg_ne _ _ h1 hi j1 hjn hl e, h.putSeg_ne _ _ h1 hi j1 hjn hl e]
      exact ih.dAg j j1 (by omega) hjn l hl

/-- data before the shift to the centre of mass in `dccrba` -/
def dccrbaCore (s : Sys K) (d : Data K) (q v : ℕ → K) : Data K :=
  let d := forwardKinematicsV s d q v
  let d := { d with oYcrb := upd d.oYcrb 0 0 }
  let d := fwd (dccrbaFwd s) s.n d
  bwd (dccrbaBwd s) s.n d

theorem dccrbaCore_ok (h : s.Packed) (hm : s.MassesOk) (d : Data K) {q : ℕ → K} (hq : s.At q) (v : ℕ → K) :
    DcB s q v 1 (dccrbaCore s d q v) := by
  have hp := h.par
  unfold dccrbaCore
  dsimp only
  obtain ⟨h0, hv⟩ := fk1_ok hp d hq v
  generalize forwardKinematicsV s d q v = d1 at h0 hv
  have hF := fwd_ind (step := dccrbaFwd s)
    (d := { d1 with oYcrb := upd d1.oYcrb 0 0 })
    (P := fun k (d : Data K) => (∀ i, 1 ≤ i → i < s.n → d.oMi i = s.oM q i ∧ (d.joints i).S = s.S q i) ∧
      (∀ i, 1 ≤ i → i < s.n → d.v i = s.V q v i) ∧
      d.oYcrb 0 = 0 ∧ (∀ i, 1 ≤ i → i < k → d.oYcrb i = (s.Y i).act (s.oM q i)) ∧
      (∀ i, 1 ≤ i → i < k → d.ov i = s.oV q v i) ∧
      (∀ i, 1 ≤ i → i < k → d.doYcrb i = ((s.Y i).act (s.oM q i)).variation (s.oV q v i))) hp.1
    ⟨fun i h1 hi => ⟨(h0 i h1 hi).2.1, (h0 i h1 hi).2.2.1⟩, fun i h1 hi => (hv i h1 hi).1, upd_self d1.oYcrb 0 0,
      fun i a b => by omega, fun i a b => by omega, fun i a b => by omega⟩
    (fun i d h1 hi ⟨a, av, b, c, e, f⟩ => by
      have e1 : (d.oMi i).act (d.v i) = s.oV q v i := by rw [(a i h1 hi).1, av i h1 hi]; rfl
      refine ⟨a, av, (upd_ne _ _ (by omega)).trans b, upd_lt_succ1 c (by rw [(a i h1 hi).1]), upd_lt_succ1 e e1,
        upd_lt_succ1 f ?_⟩
      simp only [upd_self, (a i h1 hi).1, av i h1 hi]; rfl)
  obtain ⟨a, -, b, c, e, f⟩ := hF
  exact bwd_ind (step := dccrbaBwd s) (P := fun k (d : Data K) => DcB s q v k d) hp.1
    ⟨a, e, YB.start hm b c, (by
      intro i h1 hi
      rw [filter_eq_empty_iff.2, sum_empty, add_zero]
      · exact f i h1 hi
      · intro c hc'; have := (mem_kids.1 hc').1.2; omega), fun i a b c => by omega, fun i a b c => by omega,
      fun i a b c => by omega, fun i a b c => by omega⟩
    (fun i d h1 hi ih => ih.step h h1 hi)

theorem computeCentroidalMap_core (d : Data K) (q : ℕ → K) : computeCentroidalMap s d q =
    { (ccrbaCore s d q) with
      com := upd (ccrbaCore s d q).com 0 ((ccrbaCore s d q).oYcrb 0).lever
      Ag := aboutCols s.nv (ccrbaCore s d q).Ag (upd (ccrbaCore s d q).com 0 ((ccrbaCore s d q).oYcrb 0).lever 0) } := rfl

theorem dccrbaCommon_core (d : Data K) (q v : ℕ → K) : dccrbaCommon s d q v =
    { (dccrbaCore s d q v) with
      com := upd (dccrbaCore s d q v).com 0 ((dccrbaCore s d q v).oYcrb 0).lever
      Ag := aboutCols s.nv (dccrbaCore s d q v).Ag
        (upd (dccrbaCore s d q v).com 0 ((dccrbaCore s d q v).oYcrb 0).lever 0) } := rfl

end Pin
