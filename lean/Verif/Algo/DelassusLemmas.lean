import Verif.Algo.Delassus
import Verif.Algo.MinverseLemmas
import Verif.Algo.ConstraintLemmas
import Verif.Algo.CholeskyLemmas
import Verif.Model.AncestorLemmas
import Verif.Spec.Delassus

/-! # The propagation of motions and forces is the articulated recursion -/

namespace Pin
open Finset

section ring
variable {K : Type*} [CommRing K]

theorem M6.outerMM_mulFM (a b : Motion K) (f : Force K) : (M6.outerMM a b).mulFM f = b.dot f • a := by
  ext <;> simp [M6.outerMM, M3.outer, M6.mulFM, Motion.dot, V3.dot] <;> ring
theorem M6.outerMF_mulMM (a : Motion K) (b : Force K) (v : Motion K) : (M6.outerMF a b).mulMM v = v.dot b • a := by
  ext <;> simp [M6.outerMF, M3.outer, M6.mulMM, Motion.dot, V3.dot] <;> ring
theorem M6.outerMF_tr_mulFF (a : Motion K) (b f : Force K) : (M6.outerMF a b).tr.mulFF f = a.dot f • b := by
  ext <;> simp [M6.outerMF, M3.outer, M6.mulFF, Motion.dot, V3.dot] <;> ring

theorem M6.sum_mulFM {ι : Type*} (t : Finset ι) (A : ι → M6 K) (f : Force K) :
    (∑ i ∈ t, A i).mulFM f = ∑ i ∈ t, (A i).mulFM f := by
  classical
  induction t using Finset.induction_on with
  | empty => ext <;> simp [M6.mulFM]
  | insert a t ha ih =>
    rw [sum_insert ha, sum_insert ha, ← ih]
    ext <;> simp [M6.mulFM] <;> ring
theorem M6.sum_mulMM {ι : Type*} (t : Finset ι) (A : ι → M6 K) (f : Motion K) :
    (∑ i ∈ t, A i).mulMM f = ∑ i ∈ t, (A i).mulMM f := by
  classical
  induction t using Finset.induction_on with
  | empty => ext <;> simp [M6.mulMM]
  | insert a t ha ih =>
    rw [sum_insert ha, sum_insert ha, ← ih]
    ext <;> simp [M6.mulMM] <;> ring

theorem M6.dot_tr_mulFF (A : M6 K) (v : Motion K) (f : Force K) : v.dot (A.tr.mulFF f) = (A.mulMM v).dot f := by
  simp [M6.mulFF, M6.mulMM, Motion.dot, V3.dot]; ring

theorem M6.dot_rowF (A : M6 K) (v : Motion K) (r : ℕ) : v.dot (A.rowF r) = (A.mulMM v).row r := by
  unfold M6.rowF
  match r with
  | 0 => simp [M3.col, M6.mulMM, Motion.dot, V3.dot, Motion.row]
  | 1 => simp [M3.col, M6.mulMM, Motion.dot, V3.dot, Motion.row]
  | 2 => simp [M3.col, M6.mulMM, Motion.dot, V3.dot, Motion.row]
  | 3 => simp [M3.col, M6.mulMM, Motion.dot, V3.dot, Motion.row]
  | 4 => simp [M3.col, M6.mulMM, Motion.dot, V3.dot, Motion.row]
  | n + 5 => simp [show ¬ n + 5 < 3 by omega, M3.col, M6.mulMM, Motion.dot, V3.dot, Motion.row]

theorem sum_rows (t : CType) (a b : Motion K) :
    ∑ r ∈ range t.dim, a.row r * b.row r
      = a.lin.dot b.lin + (if t = .CONTACT_6D then a.ang.dot b.ang else 0) := by
  cases t
  · simp [CType.dim, sum_range_succ, Motion.row, V3.dot]
  · simp [CType.dim, sum_range_succ, Motion.row, V3.dot]; ring

theorem V3.dot_tr_tr {R : M3 K} (h : R.IsRot) (u v : V3 K) : (R.tr.mulVec u).dot (R.tr.mulVec v) = u.dot v := by
  have := M3.IsRot.dot_mulVec h (R.tr.mulVec u) (R.tr.mulVec v)
  rw [h.mulVec_tr_mulVec, h.mulVec_tr_mulVec] at this
  exact this.symm

end ring

section field
variable {K : Type*} [Field K] {s : Sys K}

/-- the inertia of a contact stores `mu` times the squared velocity of the contact frame -/
theorem conInertia_dot (type : CType) (mu : K) {X : SE3 K} (hX : X.Valid) (v a : Motion K) :
    v.dot ((conInertia type mu X).matrix.mulMF a)
      = mu * ∑ r ∈ range type.dim, (X.actInv v).row r * (X.actInv a).row r := by
  rw [Inertia.matrix_mulMF, sum_rows]
  have e1 : (X.actInv v).lin.dot (X.actInv a).lin
      = (v.lin - X.trans.cross v.ang).dot (a.lin - X.trans.cross a.ang) := V3.dot_tr_tr hX _ _
  have e2 : (X.actInv v).ang.dot (X.actInv a).ang = v.ang.dot a.ang := V3.dot_tr_tr hX _ _
  rw [e1, e2]
  cases type
  · simp [conInertia, Inertia.mul, Motion.dot, V3.dot, V3.cross, Sym3.mulVec]; ring
  · simp [conInertia, Inertia.mul, Motion.dot, V3.dot, V3.cross, Sym3.mulVec]; ring

/-! ## supports -/

omit [Field K] in
theorem sup_zero (s : Sys K) : s.sup 0 = [0] := by unfold Sys.sup; rw [path_zero]
omit [Field K] in
theorem sup_step (hp : ParOk s.par s.n) {j : ℕ} (h1 : 1 ≤ j) (hj : j < s.n) : s.sup j = s.sup (s.par j) ++ [j] := by
  unfold Sys.sup; rw [path_step h1 (hp.2 j h1 hj)]; rfl

/-- what the algorithm uses of a support -/
structure SupOk (s : Sys K) (j : ℕ) (l : List ℕ) : Prop where
  zero : l[0]? = some 0
  last : l[l.length - 1]? = some j
  pos : 1 ≤ l.length
  par : ∀ m a, l[m + 1]? = some a → 1 ≤ a ∧ a < s.n ∧ l[m]? = some (s.par a)
  lt : l.Pairwise (· < ·)
  mem : ∀ i, i ∈ l ↔ anc s.par i j

omit [Field K] in
theorem sup_ok (hp : ParOk s.par s.n) : ∀ j, j < s.n → SupOk s j (s.sup j) := by
  intro j
  induction j using Nat.strong_induction_on with
  | _ j ih =>
    intro hj
    rcases Nat.eq_zero_or_pos j with rfl | h1
    · rw [sup_zero]
      refine ⟨rfl, rfl, by simp, fun m a h => by simp at h, by simp, fun i => ?_⟩
      rw [anc_zero]; simp
    · have hpj := hp.2 j h1 hj
      have h := ih _ hpj (by omega)
      have hpos := h.pos
      rw [sup_step hp h1 hj]
      set l := s.sup (s.par j)
      refine ⟨?_, ?_, by simp, fun m a hm => ?_, ?_, fun i => ?_⟩
      · rw [List.getElem?_append_left (by omega)]; exact h.zero
      · simp
      · by_cases e : m + 1 < l.length
        · rw [List.getElem?_append_left e] at hm
          obtain ⟨a1, a2, a3⟩ := h.par m a hm
          exact ⟨a1, a2, by rw [List.getElem?_append_left (by omega)]; exact a3⟩
        · have hlen : m + 1 < (l ++ [j]).length := (List.getElem?_eq_some_iff.1 hm).1
          have : m + 1 = l.length := by simp at hlen; omega
          rw [this, List.getElem?_append_right le_rfl] at hm
          simp at hm
          subst hm
          refine ⟨h1, hj, ?_⟩
          rw [List.getElem?_append_left (by omega), show m = l.length - 1 by omega]
          exact h.last
      · rw [List.pairwise_append]
        refine ⟨h.lt, by simp, fun a ha b hb => ?_⟩
        rw [List.mem_singleton] at hb
        subst hb
        have := anc_le hp _ (by omega) ((h.mem a).1 ha)
        omega
      · rw [List.mem_append, h.mem, anc_step h1 hpj, List.mem_singleton]
        tauto

theorem SupOk.getD {l : List ℕ} {m a : ℕ} (h : l[m]? = some a) : l.getD m 0 = a := by
  rw [List.getD_eq_getElem?_getD, h]; rfl

/-! ## the operators of a joint -/

/-- column `c` of `Jcols * Dinvᵀ` -/
def sdCol (s : Sys K) (J : ℕ → Motion K) (A : ℕ → M6 K) (i c : ℕ) : Motion K :=
  ∑ k ∈ range (s.jnv i), invBlock (s.jnv i) (dMat (seg J (s.iv i)) (seg s.arm (s.iv i)) (A i)) c k • seg J (s.iv i) k
/-- `oK[i]` -/
def kOp (s : Sys K) (J : ℕ → Motion K) (A : ℕ → M6 K) (i : ℕ) : M6 K :=
  ∑ k ∈ range (s.jnv i), M6.outerMM (sdCol s J A i k) (seg J (s.iv i) k)
/-- `oL[i]` -/
def lOp (s : Sys K) (J : ℕ → Motion K) (A : ℕ → M6 K) (i : ℕ) : M6 K :=
  -(∑ k ∈ range (s.jnv i), M6.outerMF (sdCol s J A i k) ((A i).mulMF (seg J (s.iv i) k))) + 1

theorem kOp_mulFM (J : ℕ → Motion K) (A : ℕ → M6 K) (i : ℕ) (f : Force K) :
    (kOp s J A i).mulFM f = ∑ k ∈ range (s.jnv i), (seg J (s.iv i) k).dot f • sdCol s J A i k := by
  unfold kOp
  rw [M6.sum_mulFM]
  exact sum_congr rfl fun k _ => M6.outerMM_mulFM ..

theorem lOp_mulMM (J : ℕ → Motion K) (A : ℕ → M6 K) (i : ℕ) (v : Motion K) :
    (lOp s J A i).mulMM v
      = v - ∑ k ∈ range (s.jnv i), v.dot ((A i).mulMF (seg J (s.iv i) k)) • sdCol s J A i k := by
  unfold lOp
  have e : ∀ B : M6 K, (-B + 1).mulMM v = v - B.mulMM v := by
    intro B; ext <;> simp [M6.mulMM] <;> ring
  rw [e, M6.sum_mulMM]
  congr 1
  exact sum_congr rfl fun k _ => M6.outerMF_mulMM ..

/-- the force propagated by `oL` is the one of the articulated recursion -/
theorem lOp_tr (J : ℕ → Motion K) (A : ℕ → M6 K) (i : ℕ) (f : Force K) :
    (lOp s J A i).tr.mulFF f = f - ∑ l ∈ range (s.jnv i), (seg J (s.iv i) l).dot f
      • udCol (s.jnv i) (seg J (s.iv i)) (seg s.arm (s.iv i)) (A i) l := by
  apply Motion.dot_ext
  intro v
  rw [M6.dot_tr_mulFF, lOp_mulMM, Motion.sub_dot, Motion.dot_sub, Motion.sum_dot, Motion.dot_sum]
  congr 1
  unfold sdCol udCol
  simp only [Motion.smul_dot, Motion.dot_smul, Motion.sum_dot, Motion.dot_sum, mul_sum]
  rw [sum_comm]
  exact sum_congr rfl fun l _ => sum_congr rfl fun k _ => by ring

/-- the two operators give the acceleration of the articulated recursion -/
theorem op_acc {J : ℕ → Motion K} {A : ℕ → M6 K} {i : ℕ} (hA : (A i).IsSymm) (a' : Motion K) (f : Force K) {x : ℕ → K}
    (hx : ∀ l < s.jnv i, x l = (∑ m ∈ range (s.jnv i),
      invBlock (s.jnv i) (dMat (seg J (s.iv i)) (seg s.arm (s.iv i)) (A i)) l m * (seg J (s.iv i) m).dot f)
      - a'.dot (udCol (s.jnv i) (seg J (s.iv i)) (seg s.arm (s.iv i)) (A i) l)) :
    a' + comb (seg J (s.iv i)) (s.jnv i) x = (lOp s J A i).mulMM a' + (kOp s J A i).mulFM f := by
  rw [lOp_mulMM, kOp_mulFM, sub_add_eq_add_sub, add_sub_assoc]
  congr 1
  unfold comb
  rw [sum_congr rfl (g := fun l => (∑ m ∈ range (s.jnv i),
      ((seg J (s.iv i) m).dot f * invBlock (s.jnv i) (dMat (seg J (s.iv i)) (seg s.arm (s.iv i)) (A i)) m l)
        • seg J (s.iv i) l) - ∑ m ∈ range (s.jnv i), (a'.dot ((A i).mulMF (seg J (s.iv i) m))
        * invBlock (s.jnv i) (dMat (seg J (s.iv i)) (seg s.arm (s.iv i)) (A i)) m l) • seg J (s.iv i) l)]
  · rw [sum_sub_distrib, sum_comm, sum_comm (f := fun l m => (a'.dot ((A i).mulMF (seg J (s.iv i) m))
        * invBlock (s.jnv i) (dMat (seg J (s.iv i)) (seg s.arm (s.iv i)) (A i)) m l) • seg J (s.iv i) l)]
    unfold sdCol
    simp only [smul_sum, smul_smul]
  · intro l hl
    rw [hx l (mem_range.1 hl), sub_smul, sum_smul]
    congr 1
    · apply sum_congr rfl
      intro m hm
      rw [invBlock_symm (fun i _ j _ => dMat_symm hA i j) (mem_range.1 hl) (mem_range.1 hm), mul_comm]
    · unfold udCol
      rw [Motion.dot_sum, sum_smul]
      apply sum_congr rfl
      intro m _
      rw [Motion.dot_smul, mul_comm]

/-- the backward pass -/
theorem osimBwd_ok (h : s.Packed) {I0 A : ℕ → M6 K} {x0 : OData K}
    (hY : ∀ i, 1 ≤ i → i < s.n → x0.data.oYaba i = I0 i)
    (hA : IsAcc s.par s.n (artI s (minP s x0.data.J)) I0 A) :
    ∀ i, 1 ≤ i → i < s.n → (bwd (osimBwd s) s.n x0).oK i = kOp s x0.data.J A i ∧
      (bwd (osimBwd s) s.n x0).oL i = lOp s x0.data.J A i := by
  set J := x0.data.J with hJ
  have key := bwd_ind (step := osimBwd s) (n := s.n) (d := x0)
    (P := fun k (x : OData K) => x.data.J = J ∧
      (∃ G, PAcc s.par s.n (artI s (minP s J)) I0 k G ∧ ∀ i, 1 ≤ i → i < s.n → i < k → x.data.oYaba i = G i) ∧
      ∀ i, k ≤ i → i < s.n → x.oK i = kOp s J A i ∧ x.oL i = lOp s J A i) h.par.1
    ⟨rfl, ⟨I0, PAcc.start _ _ _ _, fun i h1 hi _ => hY i h1 hi⟩, fun i hk hi => by omega⟩ (by
      rintro i x h1 hi ⟨a, ⟨G, g1, g2⟩, op⟩
      have hpi := h.par.2 i h1 hi
      have hGi : G i = A i := g1.eq_acc h.par hA i h1 hi le_rfl
      have hYi : x.data.oYaba i = A i := by rw [g2 i h1 hi (by omega), hGi]
      have hK : (osimBwd s i x).oK = upd x.oK i (kOp s J A i) := by
        unfold osimBwd
        split <;> (dsimp only; rw [hYi, a]; rfl)
      have hL : (osimBwd s i x).oL = upd x.oL i (lOp s J A i) := by
        unfold osimBwd
        split <;> (dsimp only; rw [hYi, a]; rfl)
      refine ⟨?_, ?_, ?_⟩
      · rw [← a]; unfold osimBwd; split <;> rfl
      · refine ⟨if s.par i > 0 then upd G (s.par i) (G (s.par i) + artI s (minP s J) i (G i)) else G, ?_, ?_⟩
        · apply PAcc.step h.par h1 hi g1
          intro j hj
          by_cases hpos : s.par i > 0
          · simp only [hpos, if_true]
            by_cases hj' : j = s.par i
            · subst hj'; rw [upd_self]; simp
            · rw [upd_ne _ _ hj']; simp [hj']
          · have : j ≠ s.par i := by omega
            simp [hpos, this]
        · intro j hj1 hj hji
          unfold osimBwd
          by_cases hpos : s.par i > 0
          · simp only [hpos, if_true]
            by_cases hj' : j = s.par i
            · subst hj'
              rw [upd_self, upd_self, g2 _ hj1 hj (by omega), hYi, a, hGi, add_sub_assoc]
              rfl
            · rw [upd_ne _ _ hj', upd_ne _ _ hj', g2 _ hj1 hj (by omega)]
          · simp only [hpos, if_false]
            exact g2 _ hj1 hj (by omega)
      · intro j hij hj
        rw [hK, hL]
        by_cases hji : j = i
        · subst hji; rw [upd_self, upd_self]; exact ⟨rfl, rfl⟩
        · rw [upd_ne _ _ hji, upd_ne _ _ hji]; exact op j (by omega) hj)
  exact fun i h1 hi => key.2.2 i h1 hi

/-! ## the sweeps along a support -/

theorem osimUp_ok (sup : List ℕ) (x : OData K) (dim : ℕ) : ∀ n (c : OContact K),
    (osimUp sup x dim n c).oMc1 = c.oMc1 ∧
    (∀ j, n ≤ j → (osimUp sup x dim n c).prop j = c.prop j) ∧
    (∀ j, 1 ≤ j → j < n → ∀ r < dim, (osimUp sup x dim n c).prop j r
      = (x.oL (sup.getD (j + 1) 0)).tr.mulFF ((osimUp sup x dim n c).prop (j + 1) r)) ∧
    (∀ j, n < j → (osimUp sup x dim n c).lam j = c.lam j) ∧ (osimUp sup x dim n c).lam 0 = c.lam 0 ∧
    ∀ j, 2 ≤ j → j ≤ n → ∀ r < dim, (osimUp sup x dim n c).lam j r
      = (x.oK (sup.getD j 0)).mulFM ((osimUp sup x dim n c).prop j r) := by
  intro n
  induction n with
  | zero => intro c; exact ⟨rfl, fun _ _ => rfl, fun j h1 h2 => by omega, fun _ _ => rfl, rfl, fun j h1 h2 => by omega⟩
  | succ n ih =>
    intro c
    unfold osimUp
    by_cases hn : n + 1 > 1
    · simp only [hn, if_true]
      set c1 : OContact K := { c with
        lam := upd c.lam (n + 1)
          (fun r => if r < dim then (x.oK (sup.getD (n + 1) 0)).mulFM (c.prop (n + 1) r) else c.lam (n + 1) r)
        prop := upd c.prop n
          (fun r => if r < dim then (x.oL (sup.getD (n + 1) 0)).tr.mulFF (c.prop (n + 1) r) else c.prop n r) } with hc1
      obtain ⟨a1, a2, a3, a4, a5, a6⟩ := ih c1
      have p1 : ∀ j, n < j → c1.prop j = c.prop j := fun j hj => upd_ne c.prop _ (by omega)
      have p2 : ∀ r < dim, c1.prop n r = (x.oL (sup.getD (n + 1) 0)).tr.mulFF (c.prop (n + 1) r) := by
        intro r hr
        change upd c.prop n _ n r = _
        rw [upd_self, if_pos hr]
      refine ⟨a1, fun j hj => (a2 j (by omega)).trans (p1 j (by omega)), fun j h1 hj r hr => ?_,
        fun j hj => (a4 j (by omega)).trans (upd_ne c.lam _ (by omega)), a5.trans
        (by rw [hc1]; dsimp only; rw [upd_ne c.lam _ (show 0 ≠ n + 1 by omega)]),
        fun j h1 hj r hr => ?_⟩
      · by_cases e : j = n
        · subst e
          rw [a2 j le_rfl, a2 (j + 1) (by omega), p2 r hr, p1 (j + 1) (by omega)]
        · exact a3 j h1 (by omega) r hr
      · by_cases e : j = n + 1
        · subst e
          rw [a4 (n + 1) (by omega), a2 (n + 1) (by omega), p1 (n + 1) (by omega)]
          change upd c.lam (n + 1) _ (n + 1) r = _
          rw [upd_self, if_pos hr]
        · exact a6 j h1 (by omega) r hr
    · simp only [hn, if_false]
      exact ⟨trivial, fun _ _ => trivial, fun j h1 h2 => by omega, fun _ _ => trivial, trivial, fun j h1 h2 => by omega⟩

/-- the propagators and `lambdas` of a contact -/
structure Swept (s : Sys K) (x : OData K) (m : RCM K) (X : SE3 K) (c : OContact K) : Prop where
  top : ∀ r < m.type.dim, c.prop ((s.sup m.j1).length - 1) r = X.toActionMatrixInverse.rowF r
  prop : ∀ j, 1 ≤ j → j + 1 < (s.sup m.j1).length → ∀ r < m.type.dim,
    c.prop j r = (x.oL ((s.sup m.j1).getD (j + 1) 0)).tr.mulFF (c.prop (j + 1) r)
  lam1 : ∀ r < m.type.dim, c.lam 1 r = (x.oK ((s.sup m.j1).getD 1 0)).mulFM (c.prop 1 r)
  lam : ∀ j, 1 ≤ j → j + 1 < (s.sup m.j1).length → ∀ r < m.type.dim,
    c.lam (j + 1) r = (x.oK ((s.sup m.j1).getD (j + 1) 0)).mulFM (c.prop (j + 1) r)
      + (x.oL ((s.sup m.j1).getD (j + 1) 0)).mulMM (c.lam j r)

theorem osimSweep_ok {x : OData K} {m : RCM K} {c : OContact K} (h : 2 ≤ (s.sup m.j1).length) :
    ∃ c', osimSweep s x m c = some c' ∧ Swept s x m c.oMc1 c' ∧ c'.lam 0 = c.lam 0 ∧ c'.oMc1 = c.oMc1 := by
  unfold osimSweep
  simp only [show ¬ (s.sup m.j1).length < 2 by omega, if_false]
  refine ⟨_, rfl, ?_⟩
  set n := (s.sup m.j1).length with hn
  set c0 : OContact K := { c with
    prop := upd c.prop (n - 1) (fun r => if m.type = .CONTACT_3D ∧ 3 ≤ r then 0 else c.oMc1.toActionMatrixInverse.rowF r) }
    with hc0
  obtain ⟨a1, a2, a3, a4, a5, a6⟩ := osimUp_ok (s.sup m.j1) x m.type.dim (n - 1) c0
  set c1 := osimUp (s.sup m.j1) x m.type.dim (n - 1) c0
  have htop : ∀ r < m.type.dim, c1.prop (n - 1) r = c.oMc1.toActionMatrixInverse.rowF r := by
    intro r hr
    rw [a2 _ le_rfl]
    change upd c.prop (n - 1) _ (n - 1) r = _
    rw [upd_self, if_neg]
    rintro ⟨e, h3⟩
    rw [e] at hr
    simp [CType.dim] at hr; omega
  unfold osimDown
  dsimp only
  set c2 : OContact K := { c1 with
    lam := upd c1.lam 1
      (fun r => if r < m.type.dim then (x.oK ((s.sup m.j1).getD 1 0)).mulFM (c1.prop 1 r) else c1.lam 1 r) } with hc2
  have key := upTo_ind (n := n - 2) (d := c2) (step := fun i c => { c with
      lam := upd c.lam (i + 2)
        (fun r => if r < m.type.dim then c.lam (i + 2) r + (x.oL ((s.sup m.j1).getD (i + 2) 0)).mulMM (c.lam (i + 1) r)
          else c.lam (i + 2) r) })
    (fun k (d : OContact K) => d.prop = c1.prop ∧ d.oMc1 = c1.oMc1 ∧ d.lam 0 = c2.lam 0 ∧ d.lam 1 = c2.lam 1 ∧
      (∀ j, k + 2 ≤ j → d.lam j = c2.lam j) ∧
      ∀ j, 1 ≤ j → j < k + 1 → ∀ r < m.type.dim, d.lam (j + 1) r = c2.lam (j + 1) r
        + (x.oL ((s.sup m.j1).getD (j + 1) 0)).mulMM (d.lam j r))
    ⟨rfl, rfl, rfl, rfl, fun _ _ => rfl, fun j h1 h2 => by omega⟩ (by
      rintro k d hk ⟨b1, b2, b3, b4, b5, b6⟩
      refine ⟨b1, b2, by dsimp only; rw [upd_ne d.lam _ (show 0 ≠ k + 2 by omega)]; exact b3,
        by dsimp only; rw [upd_ne d.lam _ (show 1 ≠ k + 2 by omega)]; exact b4,
        fun j hj => (upd_ne d.lam _ (by omega)).trans (b5 j (by omega)), fun j h1 hj r hr => ?_⟩
      dsimp only
      by_cases e : j = k + 1
      · subst e
        rw [upd_self, if_pos hr, upd_ne d.lam _ (by omega), b5 _ le_rfl]
      · rw [upd_ne d.lam _ (by omega), upd_ne d.lam _ (by omega)]
        exact b6 j h1 (by omega) r hr)
  obtain ⟨b1, b2, b3, b4, b5, b6⟩ := key
  refine ⟨⟨fun r hr => by rw [b1]; exact htop r hr, fun j h1 hj r hr => by rw [b1]; exact a3 j h1 (by omega) r hr,
    fun r hr => ?_, fun j h1 hj r hr => ?_⟩, ?_, ?_⟩
  · rw [b4, b1]
    rw [hc2]
    dsimp only
    rw [upd_self, if_pos hr]
  · rw [b6 j h1 (by omega) r hr, b1]
    congr 1
    refine Eq.trans ?_ (a6 (j + 1) (by omega) (by omega) r hr)
    exact congrFun (upd_ne c1.lam _ (show j + 1 ≠ 1 by omega)) r
  · rw [b3, hc2]
    dsimp only
    rw [upd_ne c1.lam _ (show 0 ≠ 1 by omega)]
    exact a5
  · rw [b2, a1]

/-! ## the response to a unit force -/

/-- what the algorithm has computed before the sweeps -/
structure Prep (s : Sys K) (q : ℕ → K) (J : ℕ → Motion K) (I0 A : ℕ → M6 K) : Prop where
  cols : ∀ i, 1 ≤ i → i < s.n → ∀ l, l < s.jnv i → J (s.iv i + l) = s.Jc q i l
  symm : ∀ i, 1 ≤ i → i < s.n → (I0 i).IsSymm
  acc : IsAcc s.par s.n (artI s (minP s J)) I0 A
  inv : ∀ i, 1 ≤ i → i < s.n → InvOk (s.jnv i) (dMat (seg J (s.iv i)) (seg s.arm (s.iv i)) (A i))

/-- the force `g` on joint `j`, propagated to its ancestors, and the motion it causes -/
structure Resp (s : Sys K) (q : ℕ → K) (J : ℕ → Motion K) (I0 A : ℕ → M6 K) (j : ℕ) (g : Force K)
    (pf : ℕ → Force K) (x : ℕ → K) : Prop where
  force : ∀ i, 1 ≤ i → i < s.n →
    pf i = (if i = j then g else 0) + ∑ c ∈ kids s.par s.n i, (lOp s J A c).tr.mulFF (pf c)
  step : ∀ i, 1 ≤ i → i < s.n → s.oV q x i = (lOp s J A i).mulMM (s.oV q x (s.par i)) + (kOp s J A i).mulFM (pf i)
  form : ∀ w, (s.oV q w j).dot g = (∑ i ∈ Ico 1 s.n, (s.oV q w i).dot ((I0 i).mulMF (s.oV q x i)))
    + s.dotv w (fun r => s.arm r * x r)

theorem comb_world (h : s.Packed) {q : ℕ → K} (hq : s.At q) {J : ℕ → Motion K}
    (hJ : ∀ i, 1 ≤ i → i < s.n → ∀ l, l < s.jnv i → J (s.iv i + l) = s.Jc q i l) (w : ℕ → K) {i : ℕ} (h1 : 1 ≤ i)
    (hi : i < s.n) : s.oV q w i = comb (seg J (s.iv i)) (s.jnv i) (s.vs w i) + s.oV q w (s.par i) := by
  rw [s.oV_step h.par hq w h1 hi]
  unfold Sys.jvel
  rw [act_comb]
  congr 1
  unfold comb
  apply sum_congr rfl
  intro l hl
  change _ = _ • J (s.iv i + l)
  rw [hJ i h1 hi l (mem_range.1 hl)]; rfl

theorem resp_exists (h : s.Packed) {q : ℕ → K} (hq : s.At q) {J : ℕ → Motion K} {I0 A : ℕ → M6 K}
    (hP : Prep s q J I0 A) {j : ℕ} (h1 : 1 ≤ j) (hj : j < s.n) (g : Force K) :
    ∃ pf x, Resp s q J I0 A j g pf x := by
  classical
  have hsym := artI_symm (P := minP s J) h hP.acc hP.symm (fun i A hA => hA)
  let st0 : AS K :=
    { Y := I0, f := fun i => -(if i = j then g else 0), u := fun _ => 0, U := fun _ _ => 0, StU := fun _ _ _ => 0
      Dinv := fun _ _ _ => 0, UDinv := fun _ _ => 0 }
  obtain ⟨G, hG, hst⟩ := absBwd_ok (P := minP s J) h (I0 := I0) (p := fun i => -(if i = j then g else 0))
    (t := fun _ => 0) (st := st0) (fun _ _ _ => rfl) (fun _ _ _ => rfl) rfl
  set st := bwd (absBwd s (minP s J)) s.n st0
  have hGA : ∀ i, 1 ≤ i → i < s.n → (G i).1 = A i := IsAcc.unique h.par (artT_fst hG) hP.acc
  obtain ⟨z, zz⟩ := absFwd_ok (P := minP s J) h st (c := fun _ => 0) (a0 := 0) (a := fun _ => 0) (q0 := fun _ => 0) rfl
    (fun _ _ _ => rfl)
  set r := fwd (absFwd s (minP s J) st) s.n ((fun _ => 0), (fun _ => 0)) with hr
  have hV : ∀ i, i < s.n → r.1 i = s.oV q r.2 i := by
    intro i hi; refine Sys.joint_ind s h.par ?_ ?_ i hi <;> clear hi i
    · rw [z, s.oV_zero]
    · intro i h1 hi ih
      rw [(zz i h1 hi).1, comb_world h hq hP.cols _ h1 hi, ← ih, zero_add, add_comm]; rfl
  refine ⟨fun i => -(G i).2, r.2, ?_, ?_, ?_⟩
  · intro i h1 hi
    rw [hG i h1 hi, Prod.snd_add, Prod.snd_sum, neg_add, neg_neg, ← sum_neg_distrib]
    congr 1
    apply sum_congr rfl
    intro c hc
    obtain ⟨⟨c1, cn⟩, -⟩ := mem_kids.1 hc
    rw [lOp_tr, ← hGA c c1 cn]
    unfold artT
    simp only [minP, id, zero_sub, M6.mulMF_zero', zero_add, neg_add, ← sum_neg_distrib, Motion.dot_neg, neg_smul, neg_neg,
      sub_eq_add_neg]
  · intro i h1 hi
    have hi' := h.par.2 i h1 hi
    rw [comb_world h hq hP.cols _ h1 hi, add_comm]
    apply op_acc (hsym i h1 hi)
    intro l hl
    have a := hst i h1 hi
    have := (zz i h1 hi).2 l hl
    rw [zero_add] at this
    change r.2 (s.iv i + l) = _
    rw [this, a.UDinv, a.Dinv, hGA i h1 hi, ← hV _ (by omega)]
    congr 1
    apply sum_congr rfl
    intro m hm
    rw [a.u m (mem_range.1 hm), zero_sub, Motion.dot_neg]; rfl
  · intro w
    have := aba_core (P := minP s J) h hG hP.symm (fun i A hA => hA) (fun i A hA v => rfl) (fun i v f => rfl)
      (fun i f g => rfl) hst (fun i h1 hi => by rw [(hst i h1 hi).StU, hGA i h1 hi]; exact hP.inv i h1 hi)
      (a := r.1) (x := r.2) (fun i h1 hi => zz i h1 hi) (w := w) (V := s.oV q w) (s.oV_zero q w)
      (fun i h1 hi => comb_world h hq hP.cols w h1 hi)
    have e0 : s.dotv w (fun _ => 0) = 0 := by unfold Sys.dotv; simp
    rw [e0] at this
    have e1 : (∑ i ∈ Ico 1 s.n, (s.oV q w i).dot ((I0 i).mulMF (r.1 i) + -(if i = j then g else 0)))
        = (∑ i ∈ Ico 1 s.n, (s.oV q w i).dot ((I0 i).mulMF (s.oV q r.2 i))) - (s.oV q w j).dot g := by
      rw [← sum_erase_add _ _ (mem_Ico.2 ⟨h1, hj⟩), ← sum_erase_add _ _ (mem_Ico.2 ⟨h1, hj⟩), if_pos rfl, hV j hj,
        Motion.dot_add, Motion.dot_neg, sum_congr rfl (g := fun i => (s.oV q w i).dot ((I0 i).mulMF (s.oV q r.2 i)))]
      · ring
      · intro i hi
        rw [mem_erase, mem_Ico] at hi
        rw [if_neg hi.1, neg_zero, add_zero, hV i hi.2.2]
    rw [e1] at this
    linear_combination this

/-- the force does not reach the joints that do not carry `j` -/
theorem Resp.off (h : s.Packed) {q : ℕ → K} {J : ℕ → Motion K} {I0 A : ℕ → M6 K} {j : ℕ} {g : Force K}
    {pf : ℕ → Force K} {x : ℕ → K} (hr : Resp s q J I0 A j g pf x) (hj : j < s.n) :
    ∀ i, 1 ≤ i → i < s.n → ¬ anc s.par i j → pf i = 0 := by
  have key : ∀ k i, 1 ≤ i → i < s.n → s.n - i ≤ k → ¬ anc s.par i j → pf i = 0 := by
    intro k
    induction k with
    | zero => intro i _ hi hk; omega
    | succ k ih =>
      intro i h1 hi hk hna
      rw [hr.force i h1 hi, if_neg, zero_add]
      · apply sum_eq_zero
        intro c hc
        obtain ⟨⟨c1, cn⟩, cp⟩ := mem_kids.1 hc
        have hlt := h.par.2 c c1 cn
        rw [ih c c1 cn (by omega)]
        · ext <;> simp [M6.mulFF]
        · intro hac
          apply hna
          refine anc_trans h.par ?_ j hj hac
          rw [anc_step c1 hlt, cp]
          exact Or.inr (anc_refl h.par hi)
      · rintro rfl
        exact hna (anc_refl h.par hi)
  exact fun i h1 hi => key _ i h1 hi le_rfl

/-- the propagators of a contact are the propagated forces, and its `lambdas` the accelerations -/
theorem Resp.swept (h : s.Packed) {q : ℕ → K} {J : ℕ → Motion K} {I0 A : ℕ → M6 K} {od : OData K}
    (hop : ∀ i, 1 ≤ i → i < s.n → od.oK i = kOp s J A i ∧ od.oL i = lOp s J A i)
    {m : RCM K} {X : SE3 K} {c : OContact K} (hc : Swept s od m X c) (h1 : 1 ≤ m.j1) (hj : m.j1 < s.n)
    {r : ℕ} (hrd : r < m.type.dim) {pf : ℕ → Force K} {x : ℕ → K}
    (hr : Resp s q J I0 A m.j1 (X.toActionMatrixInverse.rowF r) pf x) :
    (∀ k i, 1 ≤ k → (s.sup m.j1)[k]? = some i → c.prop k r = pf i) ∧
    ∀ k i, 1 ≤ k → (s.sup m.j1)[k]? = some i → c.lam k r = s.oV q x i := by
  have hs := sup_ok h.par _ hj
  set l := s.sup m.j1 with hl
  have hp : ∀ d k i, 1 ≤ k → k < l.length → l.length - k ≤ d → l[k]? = some i → c.prop k r = pf i := by
    intro d
    induction d with
    | zero => intro k i _ hk hd; omega
    | succ d ih =>
      intro k i k1 hk hd hi
      obtain ⟨i1, hin, -⟩ := hs.par (k - 1) i (by rwa [show k - 1 + 1 = k by omega])
      by_cases e : k + 1 = l.length
      · have hk' : k = l.length - 1 := by omega
        have hij : i = m.j1 := by
          have := hs.last
          rw [← hk', hi] at this
          exact Option.some.inj this
        subst hij
        rw [hk', hc.top r hrd, hr.force _ h1 hj, if_pos rfl, sum_eq_zero, add_zero]
        intro b hb
        obtain ⟨⟨b1, bn⟩, bp⟩ := mem_kids.1 hb
        have hlt := h.par.2 b b1 bn
        rw [hr.off h hj b b1 bn]
        · ext <;> simp [M6.mulFF]
        · intro hab
          have := anc_le h.par _ hj hab
          omega
      · have hk1 : k + 1 < l.length := by omega
        obtain ⟨b, hb⟩ : ∃ b, l[k + 1]? = some b := ⟨_, List.getElem?_eq_getElem hk1⟩
        obtain ⟨b1, bn, bp⟩ := hs.par k b hb
        have hpb : s.par b = i := by rw [bp] at hi; exact Option.some.inj hi
        have hij : i ≠ m.j1 := by
          rintro rfl
          have := (Model.sorted_lt hs.lt hi hs.last).2 (by omega)
          omega
        rw [hc.prop k k1 hk1 r hrd, SupOk.getD hb, ih (k + 1) b (by omega) hk1 (by omega) hb, (hop b b1 bn).2,
          hr.force i i1 hin, if_neg hij, zero_add, sum_eq_single_of_mem b (mem_kids.2 ⟨⟨b1, bn⟩, hpb⟩)]
        intro d hd hne
        obtain ⟨⟨d1, dn⟩, dp⟩ := mem_kids.1 hd
        rw [hr.off h hj d d1 dn]
        · ext <;> simp [M6.mulFF]
        · intro had
          exact hne (kids_disjoint h.par hin hd (mem_kids.2 ⟨⟨b1, bn⟩, hpb⟩) hj had
            ((hs.mem b).1 (List.mem_of_getElem? hb)))
  have hp' : ∀ k i, 1 ≤ k → l[k]? = some i → c.prop k r = pf i :=
    fun k i k1 hi => hp _ k i k1 (List.getElem?_eq_some_iff.1 hi).1 le_rfl hi
  refine ⟨hp', ?_⟩
  intro k
  induction k with
  | zero => intro i k1; omega
  | succ k ih =>
    intro i _ hi
    obtain ⟨i1, hin, ip⟩ := hs.par k i hi
    rw [hr.step i i1 hin]
    by_cases k0 : k = 0
    · subst k0
      have : s.par i = 0 := by rw [hs.zero] at ip; exact (Option.some.inj ip).symm
      rw [this, s.oV_zero, hc.lam1 r hrd, SupOk.getD hi, hp' 1 i le_rfl hi, (hop i i1 hin).1]
      have : (lOp s J A i).mulMM 0 = 0 := by ext <;> simp [M6.mulMM]
      rw [this, zero_add]
    · rw [hc.lam k (by omega) (List.getElem?_eq_some_iff.1 hi).1 r hrd, SupOk.getD hi, hp' _ i (by omega) hi,
        ih _ (by omega) ip, (hop i i1 hin).1, (hop i i1 hin).2, add_comm]

/-- the entries of the block of two contacts -/
theorem block_entry (h : s.Packed) {q : ℕ → K} {J : ℕ → Motion K} {I0 A : ℕ → M6 K} {od : OData K}
    (hop : ∀ i, 1 ≤ i → i < s.n → od.oK i = kOp s J A i ∧ od.oL i = lOp s J A i)
    {m m' : RCM K} {X X' : SE3 K} {c c' : OContact K} (hc : Swept s od m X c) (hc' : Swept s od m' X' c')
    (h1 : 1 ≤ m.j1) (hj : m.j1 < s.n) (h1' : 1 ≤ m'.j1) (hj' : m'.j1 < s.n)
    {r r' : ℕ} (hrd : r < m.type.dim) (hrd' : r' < m'.type.dim) (hl0 : c.lam 0 r = 0) {pf : ℕ → Force K} {x : ℕ → K}
    (hr : Resp s q J I0 A m.j1 (X.toActionMatrixInverse.rowF r) pf x) :
    ∃ p, s.fca m.j1 m'.j1 = some p ∧
      (c.lam p.1 r).dot (c'.prop p.2 r') = (s.oV q x m'.j1).dot (X'.toActionMatrixInverse.rowF r') := by
  obtain ⟨hprop, hlam⟩ := hr.swept h hop hc h1 hj hrd
  have hs := sup_ok h.par _ hj
  have hs' := sup_ok h.par _ hj'
  unfold Sys.fca
  rw [if_neg (by omega)]
  obtain ⟨b, k1, k2, e, hi⟩ := Model.caLoop_ok hs.lt hs'.lt hs.zero hs'.zero _ m.j1 m'.j1 _ _ rfl
    ⟨hs.last, hs'.last, fun b hb hb' => ⟨anc_le h.par _ hj ((hs.mem b).1 hb), anc_le h.par _ hj' ((hs'.mem b).1 hb')⟩⟩
  rw [e]
  refine ⟨(k1, k2), rfl, ?_⟩
  dsimp only
  have hlen := hs'.pos
  -- start
  have hstart : c.lam k1 r = s.oV q x b := by
    rcases Nat.eq_zero_or_pos k1 with rfl | hk
    · have : b = 0 := by have := hi.at1; rw [hs.zero] at this; exact (Option.some.inj this).symm
      rw [this, s.oV_zero, hl0]
    · exact hlam k1 b hk hi.at1
  have key : ∀ k i, k2 ≤ k → (s.sup m'.j1)[k]? = some i →
      (s.oV q x i).dot (c'.prop k r') = (c.lam k1 r).dot (c'.prop k2 r') := by
    intro k i hk
    induction k, hk using Nat.le_induction generalizing i with
    | base =>
      intro hb
      rw [hi.at2] at hb
      cases hb
      rw [hstart]
    | succ k hk ih =>
      intro hb
      obtain ⟨i1, hin, ip⟩ := hs'.par k i hb
      have hnot : ¬ anc s.par i m.j1 := by
        intro ha
        have h3 := (hi.le i ((hs.mem i).2 ha) (List.mem_of_getElem? hb)).1
        have h4 := (Model.sorted_lt hs'.lt hi.at2 hb).2 (by omega)
        omega
      rw [← ih _ ip, hr.step i i1 hin, hr.off h hj i i1 hin hnot]
      have z : (kOp s J A i).mulFM 0 = 0 := by ext <;> simp [M6.mulFM]
      rw [z, add_zero, ← M6.dot_tr_mulFF]
      rcases Nat.eq_zero_or_pos k with rfl | hk0
      · have : s.par i = 0 := by rw [hs'.zero] at ip; exact (Option.some.inj ip).symm
        rw [this, s.oV_zero, Motion.zero_dot, Motion.zero_dot]
      · rw [hc'.prop k hk0 (List.getElem?_eq_some_iff.1 hb).1 r' hrd', SupOk.getD hb, (hop i i1 hin).2]
  have hle : k2 ≤ (s.sup m'.j1).length - 1 := by have := (List.getElem?_eq_some_iff.1 hi.at2).1; omega
  rw [← key _ _ hle hs'.last, hc'.top r' hrd']

/-! ## the matrix -/

omit [Field K] in
theorem putBlk_in (D : ℕ → ℕ → K) {r0 c0 nr nc : ℕ} (B : ℕ → ℕ → K) {r c : ℕ} (hr : r < nr) (hc : c < nc) :
    putBlk D r0 c0 nr nc B (r0 + r) (c0 + c) = B r c := by
  unfold putBlk
  rw [if_pos ⟨⟨by omega, by omega⟩, by omega, by omega⟩]
  congr 1 <;> omega

omit [Field K] in
theorem putBlk_out (D : ℕ → ℕ → K) {r0 c0 nr nc : ℕ} (B : ℕ → ℕ → K) {R C : ℕ}
    (h : ∀ r c, r < nr → c < nc → ¬ (R = r0 + r ∧ C = c0 + c)) : putBlk D r0 c0 nr nc B R C = D R C := by
  unfold putBlk
  rw [if_neg]
  rintro ⟨⟨a, b⟩, c, d⟩
  exact h (R - r0) (C - c0) (by omega) (by omega) ⟨by omega, by omega⟩

omit [Field K] in
theorem conRow_le (ms : ℕ → RCM K) {i j : ℕ} (h : i < j) : conRow ms i + (ms i).type.dim ≤ conRow ms j := by
  induction j, h using Nat.le_induction with
  | base => exact le_rfl
  | succ j hj ih => exact ih.trans (Nat.le_add_right _ _)

omit [Field K] in
theorem conRow_inj (ms : ℕ → RCM K) {i j r c : ℕ} (hr : r < (ms i).type.dim) (hc : c < (ms j).type.dim)
    (h : conRow ms i + r = conRow ms j + c) : i = j ∧ r = c := by
  rcases lt_trichotomy i j with e | e | e
  · have := conRow_le ms e; omega
  · subst e; exact ⟨rfl, by omega⟩
  · have := conRow_le ms e; omega

/-- the main loop -/
theorem osimLoop_ok (h : s.Packed) {q : ℕ → K} {J : ℕ → Motion K} {I0 A : ℕ → M6 K} {od : OData K}
    (hop : ∀ i, 1 ≤ i → i < s.n → od.oK i = kOp s J A i ∧ od.oL i = lOp s J A i)
    {ms : ℕ → RCM K} {nc : ℕ} (hms : ∀ k < nc, 1 ≤ (ms k).j1 ∧ (ms k).j1 < s.n) {cd : ℕ → OContact K}
    (hl0 : ∀ k < nc, ∀ r < (ms k).type.dim, (cd k).lam 0 r = 0) (D : ℕ → ℕ → K)
    {pf : ℕ → ℕ → ℕ → Force K} {x : ℕ → ℕ → ℕ → K}
    (hr : ∀ k < nc, ∀ c < (ms k).type.dim,
      Resp s q J I0 A (ms k).j1 ((cd k).oMc1.toActionMatrixInverse.rowF c) (pf k c) (x k c)) :
    ∃ z, upTo (osimStep s ms od) nc (some (cd, D)) = some z ∧ (∀ k, (z.1 k).lam 0 = (cd k).lam 0) ∧
      (∀ i k, i ≤ k → k < nc → ∀ r < (ms i).type.dim, ∀ c < (ms k).type.dim,
        z.2 (conRow ms i + r) (conRow ms k + c)
          = (s.oV q (x k c) (ms i).j1).dot ((cd i).oMc1.toActionMatrixInverse.rowF r)) ∧
      ∀ R C, (∀ i k, i ≤ k → k < nc → ∀ r < (ms i).type.dim, ∀ c < (ms k).type.dim,
        ¬ (R = conRow ms i + r ∧ C = conRow ms k + c)) → z.2 R C = D R C := by
  have key := upTo_ind (step := osimStep s ms od) (n := nc) (d := some (cd, D))
    (fun n y => ∃ z : (ℕ → OContact K) × (ℕ → ℕ → K), y = some z ∧
      (∀ k < n, Swept s od (ms k) (cd k).oMc1 (z.1 k) ∧ (z.1 k).lam 0 = (cd k).lam 0) ∧
      (∀ k, n ≤ k → z.1 k = cd k) ∧
      (∀ i k, i ≤ k → k < n → ∀ r < (ms i).type.dim, ∀ c < (ms k).type.dim,
        z.2 (conRow ms i + r) (conRow ms k + c)
          = (s.oV q (x k c) (ms i).j1).dot ((cd i).oMc1.toActionMatrixInverse.rowF r)) ∧
      ∀ R C, (∀ i k, i ≤ k → k < n → ∀ r < (ms i).type.dim, ∀ c < (ms k).type.dim,
        ¬ (R = conRow ms i + r ∧ C = conRow ms k + c)) → z.2 R C = D R C)
    ⟨_, rfl, fun k hk => by omega, fun _ _ => rfl, fun i k _ hk => by omega, fun _ _ _ => rfl⟩ ?_
  · obtain ⟨z, a, a1, a2, b, c⟩ := key
    refine ⟨z, a, fun k => ?_, b, c⟩
    by_cases hk : k < nc
    · exact (a1 k hk).2
    · rw [a2 k (by omega)]
  · rintro n y hn ⟨⟨cdz, Dz⟩, rfl, hsw, hrest, hin, hout⟩
    obtain ⟨hm1, hmn⟩ := hms n hn
    have hsn := sup_ok h.par _ hmn
    have hlen : 2 ≤ (s.sup (ms n).j1).length := by
      by_contra hcon
      have hpos := hsn.pos
      have e1 := hsn.last
      rw [show (s.sup (ms n).j1).length - 1 = 0 by omega, hsn.zero] at e1
      have := Option.some.inj e1
      omega
    obtain ⟨c', e', hs', l0', -⟩ := osimSweep_ok (x := od) (m := ms n) (c := cdz n) hlen
    have hcn : cdz n = cd n := hrest n le_rfl
    rw [hcn] at hs' l0'
    have hall : ∀ k < n + 1, Swept s od (ms k) (cd k).oMc1 (upd cdz n c' k) ∧ (upd cdz n c' k).lam 0 = (cd k).lam 0 := by
      intro k hk
      by_cases e : k = n
      · subst e; rw [upd_self]; exact ⟨hs', l0'⟩
      · rw [upd_ne _ _ e]; exact hsw k (by omega)
    have inner := upTo_ind (step := osimBlock s ms (upd cdz n c') n) (n := n) (d := some Dz)
      (fun b y => ∃ E, y = some E ∧
        (∀ i < b, ∀ r < (ms i).type.dim, ∀ c < (ms n).type.dim, E (conRow ms i + r) (conRow ms n + c)
          = (s.oV q (x n c) (ms i).j1).dot ((cd i).oMc1.toActionMatrixInverse.rowF r)) ∧
        ∀ R C, (∀ i < b, ∀ r < (ms i).type.dim, ∀ c < (ms n).type.dim,
          ¬ (R = conRow ms i + r ∧ C = conRow ms n + c)) → E R C = Dz R C)
      ⟨_, rfl, fun i hi => by omega, fun _ _ _ => rfl⟩ (by
        rintro b y hb ⟨E, rfl, h3, h4⟩
        obtain ⟨hb1, hbn⟩ := hms b (by omega)
        obtain ⟨sb, -⟩ := hall b (by omega)
        obtain ⟨sn, l0n⟩ := hall n (by omega)
        -- the positions of the common ancestor do not depend on the entry
        have hdim : ∀ k, 0 < (ms k).type.dim := fun k => by cases (ms k).type <;> simp [CType.dim]
        obtain ⟨p, hp, -⟩ := block_entry h hop sn sb hm1 hmn hb1 hbn (hdim n) (hdim b)
          (by rw [l0n]; exact hl0 n hn _ (hdim n)) (hr n hn 0 (hdim n))
        refine ⟨putBlk E (conRow ms b) (conRow ms n) (ms b).type.dim (ms n).type.dim fun r c =>
          ((upd cdz n c' n).lam p.1 c).dot ((upd cdz n c' b).prop p.2 r), by unfold osimBlock; rw [hp]; rfl, ?_, ?_⟩
        · intro i hi r hrd c hcd
          by_cases e : i = b
          · subst e
            rw [putBlk_in _ _ hrd hcd]
            obtain ⟨p', hp', hv⟩ := block_entry h hop sn sb hm1 hmn hb1 hbn hcd hrd
              (by rw [l0n]; exact hl0 n hn _ hcd) (hr n hn c hcd)
            rw [hp] at hp'
            cases hp'
            exact hv
          · rw [putBlk_out]
            · exact h3 i (by omega) r hrd c hcd
            · rintro r' c' hr' _ ⟨e1, -⟩
              exact e (conRow_inj ms hrd hr' e1).1
        · intro R C hRC
          rw [putBlk_out _ _ (fun r c hr hc => hRC b (by omega) r hr c hc)]
          exact h4 R C fun i hi => hRC i (by omega))
    obtain ⟨E, hE, h3, h4⟩ := inner
    refine ⟨_, by unfold osimStep; dsimp only [Option.bind_some]; rw [e']; dsimp only [Option.bind_some]; rw [hE]; rfl,
      hall, fun k hk => by dsimp only; rw [upd_ne _ _ (by omega)]; exact hrest k (by omega), ?_, ?_⟩
    · intro i k hik hk r hrd c hcd
      dsimp only
      by_cases e : k = n
      · subst e
        by_cases e2 : i = k
        · subst e2
          rw [putBlk_in _ _ hrd hcd]
          obtain ⟨sn, -⟩ := hall i (by omega)
          obtain ⟨-, h5⟩ := (hr i hn c hcd).swept h hop sn hm1 hmn hcd
          rw [h5 _ _ (by omega) hsn.last, sn.top r hrd]
        · rw [putBlk_out]
          · exact h3 i (by omega) r hrd c hcd
          · rintro r' c' hr' _ ⟨e1, -⟩
            exact e2 (conRow_inj ms hrd hr' e1).1
      · rw [putBlk_out, h4]
        · exact hin i k hik (by omega) r hrd c hcd
        · rintro i' hi' r' hr' c' hc' ⟨-, e1⟩
          exact e (conRow_inj ms hcd hc' e1).1
        · rintro r' c' _ hc' ⟨-, e1⟩
          exact e (conRow_inj ms hcd hc' e1).1
    · intro R C hRC
      dsimp only
      rw [putBlk_out _ _ (fun r c hr hc => hRC n n le_rfl (by omega) r hr c hc),
        h4 R C fun i hi => hRC i n (by omega) (by omega)]
      exact hout R C fun i k hik hk => hRC i k hik (by omega)

/-! ## before the loop -/

theorem osimContact_ok (ms : ℕ → RCM K) (mu : K) (nc : ℕ) (d : Data K) (cd : ℕ → OContact K) :
    let y := upTo (osimContact ms mu) nc (d, cd)
    y.1.J = d.J ∧ y.1.oMi = d.oMi ∧
    (∀ i, y.1.oYaba i = d.oYaba i + ∑ k ∈ range nc,
      if (ms k).j1 = i then (conInertia (ms k).type mu (d.oMi (ms k).j1 * (ms k).P1)).matrix else 0) ∧
    (∀ k, (y.2 k).lam = (cd k).lam) ∧ ∀ k < nc, (y.2 k).oMc1 = d.oMi (ms k).j1 * (ms k).P1 := by
  refine upTo_ind (fun n (y : Data K × (ℕ → OContact K)) => y.1.J = d.J ∧ y.1.oMi = d.oMi ∧
    (∀ i, y.1.oYaba i = d.oYaba i + ∑ k ∈ range n,
      if (ms k).j1 = i then (conInertia (ms k).type mu (d.oMi (ms k).j1 * (ms k).P1)).matrix else 0) ∧
    (∀ k, (y.2 k).lam = (cd k).lam) ∧ ∀ k < n, (y.2 k).oMc1 = d.oMi (ms k).j1 * (ms k).P1)
    ⟨rfl, rfl, fun i => by simp, fun _ => rfl, fun k hk => by omega⟩ ?_
  rintro n y hn ⟨a, b, c, e, f⟩
  refine ⟨a, b, fun i => ?_, fun k => ?_, fun k hk => ?_⟩
  · unfold osimContact
    dsimp only
    rw [sum_range_succ, ← add_assoc, ← c i, b]
    by_cases hi : i = (ms n).j1
    · subst hi; rw [upd_self, if_pos rfl]
    · rw [upd_ne _ _ hi, if_neg (Ne.symm hi), add_zero]
  · unfold osimContact
    dsimp only
    by_cases hk : k = n
    · subst hk; rw [upd_self]; exact e k
    · rw [upd_ne _ _ hk]; exact e k
  · unfold osimContact
    dsimp only
    by_cases hkn : k = n
    · subst hkn; rw [upd_self, b]
    · rw [upd_ne _ _ hkn]; exact f k (by omega)

/-- inertias of the bodies and of the contacts -/
def dampI (s : Sys K) (q : ℕ → K) (ms : ℕ → RCM K) (nc : ℕ) (mu : K) (i : ℕ) : M6 K :=
  s.oI q i + ∑ k ∈ range nc, if (ms k).j1 = i then (conInertia (ms k).type mu (s.oM q (ms k).j1 * (ms k).P1)).matrix else 0

theorem M6.sum_symm {ι : Type*} (t : Finset ι) (A : ι → M6 K) (h : ∀ i ∈ t, (A i).IsSymm) : (∑ i ∈ t, A i).IsSymm := by
  rw [M6.isSymm_iff]
  intro u v
  rw [M6.sum_mulMF, M6.sum_mulMF, Motion.dot_sum, Motion.dot_sum]
  exact sum_congr rfl fun i hi => M6.isSymm_iff.1 (h i hi) u v

theorem dampI_symm (q : ℕ → K) (ms : ℕ → RCM K) (nc : ℕ) (mu : K) (i : ℕ) : (dampI s q ms nc mu i).IsSymm := by
  rw [M6.isSymm_iff]
  intro u v
  unfold dampI
  rw [M6.add_mulMF, M6.add_mulMF, Motion.dot_add, Motion.dot_add, M6.isSymm_iff.1 (s.oI_symm q i) u v]
  congr 1
  refine M6.isSymm_iff.1 (M6.sum_symm _ _ fun k _ => ?_) u v
  split
  · exact Inertia.matrix_symm _
  · rw [M6.isSymm_iff]; intro u v; simp

theorem conVel_world (h : s.Packed) {q : ℕ → K} (hq : s.At q) {m : RCM K} (hj : m.j1 < s.n) (hP : m.P1.Valid)
    (w : ℕ → K) : (s.oM q m.j1 * m.P1).actInv (s.oV q w m.j1) = s.conVel q m w := by
  have hv := s.oM_valid h.par hq _ hj
  rw [SE3.mul_actInv hv hP]
  unfold Sys.oV Sys.conVel
  rw [SE3.actInv_act hv]

theorem dampedForm_world (h : s.Packed) {q : ℕ → K} (hq : s.At q) {ms : ℕ → RCM K} {nc : ℕ}
    (hms : ∀ k < nc, 1 ≤ (ms k).j1 ∧ (ms k).j1 < s.n ∧ (ms k).P1.Valid) (mu : K) (w a : ℕ → K) :
    (∑ i ∈ Ico 1 s.n, (s.oV q w i).dot ((dampI s q ms nc mu i).mulMF (s.oV q a i)))
      + s.dotv w (fun r => s.arm r * a r) = s.dampedForm q ms nc mu w a := by
  unfold Sys.dampedForm Sys.massForm Sys.conPower dampI
  rw [sum_congr rfl (g := fun i => (s.V q w i).dot ((s.Y i).mul (s.V q a i))
    + ∑ k ∈ range nc, if (ms k).j1 = i then (s.oV q w i).dot
      ((conInertia (ms k).type mu (s.oM q (ms k).j1 * (ms k).P1)).matrix.mulMF (s.oV q a i)) else 0)]
  · rw [sum_add_distrib, sum_comm]
    have e : (∑ k ∈ range nc, ∑ i ∈ Ico 1 s.n, if (ms k).j1 = i then (s.oV q w i).dot
        ((conInertia (ms k).type mu (s.oM q (ms k).j1 * (ms k).P1)).matrix.mulMF (s.oV q a i)) else 0)
        = mu * ∑ k ∈ range nc, ∑ r ∈ range (ms k).type.dim,
          (s.conVel q (ms k) w).row r * (s.conVel q (ms k) a).row r := by
      rw [mul_sum]
      apply sum_congr rfl
      intro k hk
      obtain ⟨k1, kn, kv⟩ := hms k (mem_range.1 hk)
      rw [sum_ite_eq, if_pos (mem_Ico.2 ⟨k1, kn⟩), conInertia_dot _ _ (SE3.Valid.mul (s.oM_valid h.par hq _ kn) kv)]
      simp only [conVel_world h hq kn kv]
    rw [e]
    ring
  · intro i hi
    rw [mem_Ico] at hi
    rw [M6.add_mulMF, Motion.dot_add, ← s.dot_mul_world h.par hq w a hi.2, M6.sum_mulMF, Motion.dot_sum]
    congr 1
    apply sum_congr rfl
    intro k _
    split
    · rfl
    · simp

/-- what `computeDelassusMatrix` returns -/
theorem delassus_ok [LinearOrder K] (h : s.Packed) {q : ℕ → K} (hq : s.At q) {ms : ℕ → RCM K} {nc : ℕ} {mu : K}
    (hmu : 0 ≤ mu) (hms : ∀ k < nc, 1 ≤ (ms k).j1 ∧ (ms k).j1 < s.n ∧ (ms k).P1.Valid)
    (hdef : s.DampedDef q ms nc mu) (x : OData K) {cd : ℕ → OContact K}
    (hl0 : ∀ k < nc, ∀ r < (ms k).type.dim, (cd k).lam 0 r = 0) (D : ℕ → ℕ → K) :
    ∃ (resp : ℕ → ℕ → ℕ → K) (z : OSim K),
      computeDelassusMatrix s ms nc x cd q (conRow ms nc) (conRow ms nc) D mu = .ok () z ∧
      (∀ k, (z.cd k).lam 0 = (cd k).lam 0) ∧ (∀ k < nc, ∀ c < (ms k).type.dim, s.IsResponse q ms nc mu k c (resp k c)) ∧
      (∀ i k, i ≤ k → k < nc → ∀ r < (ms i).type.dim, ∀ c < (ms k).type.dim,
        z.D (conRow ms i + r) (conRow ms k + c) = (s.conVel q (ms i) (resp k c)).row r) ∧
      ∀ R C, (∀ i k, i ≤ k → k < nc → ∀ r < (ms i).type.dim, ∀ c < (ms k).type.dim,
        ¬ (R = conRow ms i + r ∧ C = conRow ms k + c)) → z.D R C = D R C := by
  obtain ⟨f1, -⟩ := minvFwd1_ok h hq x.data
  change ∀ i, 1 ≤ i → i < s.n → (fwd (osimFwd s q) s.n x.data).oMi i = s.oM q i ∧
    (fwd (osimFwd s q) s.n x.data).oYaba i = s.oI q i ∧ ∀ l, l < s.jnv i →
    (fwd (osimFwd s q) s.n x.data).J (s.iv i + l) = s.Jc q i l at f1
  unfold computeDelassusMatrix
  rw [if_neg (not_not.2 hmu), if_neg (by simp)]
  set d := fwd (osimFwd s q) s.n x.data with hd
  obtain ⟨y1, y2, y3, y4, y5⟩ := osimContact_ok ms mu nc d cd
  set y := upTo (osimContact ms mu) nc (d, cd) with hy
  have hY : ∀ i, 1 ≤ i → i < s.n → y.1.oYaba i = dampI s q ms nc mu i := by
    intro i h1 hi
    rw [y3, (f1 i h1 hi).2.1]
    unfold dampI
    congr 1
    apply sum_congr rfl
    intro k hk
    obtain ⟨k1, kn, -⟩ := hms k (mem_range.1 hk)
    rw [(f1 _ k1 kn).1]
  have hJ : ∀ i, 1 ≤ i → i < s.n → ∀ l, l < s.jnv i → y.1.J (s.iv i + l) = s.Jc q i l := by
    intro i h1 hi l hl
    rw [y1]; exact (f1 i h1 hi).2.2 l hl
  obtain ⟨A, hA⟩ := IsAcc.exists h.par (artI s (minP s y.1.J)) (dampI s q ms nc mu)
  have hP : Prep s q y.1.J (dampI s q ms nc mu) A := by
    refine ⟨hJ, fun i _ _ => dampI_symm .., hA, ?_⟩
    refine art_regular (P := minP s y.1.J) h hA (fun i _ _ => dampI_symm ..) (fun i A hA => hA)
      (fun i A hA v => rfl) (fun i v f => rfl) (fun i => rfl) ?_
    intro w V V0 hV e
    apply hdef w
    have hVV : ∀ i, i < s.n → V i = s.oV q w i := by
      intro i hi; refine Sys.joint_ind s h.par ?_ ?_ i hi <;> clear hi i
      · rw [V0, s.oV_zero]
      · intro i h1 hi ih
        rw [hV i h1 hi, comb_world h hq hJ _ h1 hi, ← ih]; rfl
    rw [← dampedForm_world h hq hms, ← e]
    congr 1
    apply sum_congr rfl
    intro i hi
    rw [hVV i (mem_Ico.1 hi).2]
  have hop := osimBwd_ok (x0 := { x with data := y.1 }) h hY hA
  have hresp : ∀ k c, ∃ pf r, k < nc → Resp s q y.1.J (dampI s q ms nc mu) A (ms k).j1
      ((y.2 k).oMc1.toActionMatrixInverse.rowF c) pf r := by
    intro k c
    by_cases hk : k < nc
    · obtain ⟨k1, kn, -⟩ := hms k hk
      obtain ⟨pf, r, hr⟩ := resp_exists h hq hP k1 kn ((y.2 k).oMc1.toActionMatrixInverse.rowF c)
      exact ⟨pf, r, fun _ => hr⟩
    · exact ⟨fun _ => 0, fun _ => 0, fun h => absurd h hk⟩
  choose pf r hr using hresp
  have hrow : ∀ k < nc, ∀ c w, (s.oV q w (ms k).j1).dot ((y.2 k).oMc1.toActionMatrixInverse.rowF c)
      = (s.conVel q (ms k) w).row c := by
    intro k hk c w
    obtain ⟨k1, kn, kv⟩ := hms k hk
    rw [M6.dot_rowF, SE3.toActionMatrixInverse_mul, y5 k hk, (f1 _ k1 kn).1, conVel_world h hq kn kv]
  obtain ⟨z, ez, hz0, hz1, hz2⟩ := osimLoop_ok (od := bwd (osimBwd s) s.n { x with data := y.1 }) h hop (ms := ms) (nc := nc)
    (fun k hk => ⟨(hms k hk).1, (hms k hk).2.1⟩) (cd := y.2) (fun k hk r hrd => by rw [y4]; exact hl0 k hk r hrd) D
    (pf := pf) (x := r) (fun k hk c _ => hr k c hk)
  refine ⟨r, _, by dsimp only; rw [ez], fun k => by dsimp only; rw [hz0, y4], ?_, ?_, ?_⟩
  · intro k hk c _ w
    rw [← hrow k hk c w, (hr k c hk).form w, dampedForm_world h hq hms]
  · intro i k hik hk a ha c hc
    dsimp only
    rw [hz1 i k hik hk a ha c hc, hrow i (by omega)]
  · exact hz2

end field
end Pin
