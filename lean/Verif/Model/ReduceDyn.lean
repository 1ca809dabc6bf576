import Verif.Model.ReduceLemmas
import Verif.Algo.Passes
import Verif.Joint.Lemmas

/-!
# Kinematics and dynamics of a tree whose joints are partly locked

Two tables `s`, `r` such that `r` is `s` with the joints of `L` welded: same motions, same virtual power.
-/

set_option linter.unusedSectionVars false
set_option linter.unusedVariables false

namespace Pin
open Finset
variable {K : Type*} [CommRing K]

/-- `r` is `s` with the joints of `L` fixed at `Mref` -/
structure Sys.Welded (s r : Sys K) (L : List ℕ) (Mref : ℕ → SE3 K) : Prop where
  par : ParOk s.par s.n
  lock : 0 ∉ L
  n : r.n = rank L s.n
  grav : r.grav = s.grav
  rpar : ∀ i, 1 ≤ i → i < s.n → i ∉ L → r.par (rank L i) = rank L (attach s.par s.pl Mref L (s.par i)).1
  rpl : ∀ i, 1 ≤ i → i < s.n → i ∉ L → r.pl (rank L i) = (attach s.par s.pl Mref L (s.par i)).2 * s.pl i
  rjt : ∀ i, 1 ≤ i → i < s.n → i ∉ L → r.jt (rank L i) = s.jt i
  rY : ∀ k, 1 ≤ k → k < s.n → k ∉ L → (r.Y (rank L k)).matrix
    = ∑ i ∈ range s.n with (attach s.par s.pl Mref L i).1 = k, ((s.Y i).act (attach s.par s.pl Mref L i).2).matrix
  valid : ∀ i, 1 ≤ i → i < s.n → i ∈ L → (Mref i).Valid

theorem rank_pos {L : List ℕ} (h0 : 0 ∉ L) {i : ℕ} (h1 : 1 ≤ i) : 1 ≤ rank L i := by
  have := rank_mono (L := L) h1
  rw [rank_succ_of_not_mem h0] at this
  omega

theorem exists_rank {L : List ℕ} : ∀ {n k : ℕ}, k < rank L n → ∃ i < n, i ∉ L ∧ rank L i = k := by
  intro n
  induction n with
  | zero => intro k hk; simp [rank, keptBefore] at hk
  | succ n ih =>
    intro k hk
    by_cases hL : n ∈ L
    · rw [rank_succ_of_mem hL] at hk
      obtain ⟨i, hi, r⟩ := ih hk
      exact ⟨i, by omega, r⟩
    · rw [rank_succ_of_not_mem hL] at hk
      rcases Nat.lt_succ_iff_lt_or_eq.1 hk with e | e
      · obtain ⟨i, hi, r⟩ := ih e
        exact ⟨i, by omega, r⟩
      · exact ⟨n, by omega, hL, e.symm⟩

/-- every index of the reduced model is the rank of a kept joint -/
theorem sum_rank {α : Type*} [AddCommMonoid α] {L : List ℕ} (h0 : 0 ∉ L) (f : ℕ → α) : ∀ n, 1 ≤ n →
    ∑ k ∈ Ico 1 n with k ∉ L, f (rank L k) = ∑ k ∈ Ico 1 (rank L n), f k := by
  intro n hn
  induction n, hn using Nat.le_induction with
  | base => rw [rank_succ_of_not_mem h0]; simp [rank, keptBefore]
  | succ n hn ih =>
    rw [← Finset.insert_Ico_right_eq_Ico_add_one hn, filter_insert]
    by_cases hL : n ∈ L
    · rw [if_neg (by simpa using hL), rank_succ_of_mem hL, ih]
    · rw [if_pos hL, rank_succ_of_not_mem hL, sum_insert (by simp), ih, sum_Ico_succ_top (rank_pos h0 hn), add_comm]

/-! ## the joint types read only their own coordinates -/

theorem Joint.Local.ok {J : Joint K} (h : J.Local) {x y : ℕ → K} (ho : J.Ok x) (hxy : ∀ k < J.nq, x k = y k) : J.Ok y := by
  refine ⟨?_, fun w => ?_⟩
  · rw [← h.M x y hxy]; exact ho.valid
  · rw [← h.v x y w w hxy (fun _ _ => rfl), ho.vel w, h.S x y hxy]

section joints
variable [Trig K]
theorem jRevolute_local (a : Fin 3) : (jRevolute a : Joint K).Local := by
  constructor <;> intros <;> simp_all [jRevolute] <;> rfl
theorem jRevoluteUnaligned_local (u : V3 K) : (jRevoluteUnaligned u : Joint K).Local := by
  constructor <;> intros <;> simp_all [jRevoluteUnaligned] <;> rfl
omit [Trig K] in
theorem jRUB_local (a : Fin 3) : (jRUB a : Joint K).Local := by
  constructor <;> intros <;> simp_all [jRUB] <;> rfl
omit [Trig K] in
theorem jRUBUnaligned_local (u : V3 K) : (jRUBUnaligned u : Joint K).Local := by
  constructor <;> intros <;> simp_all [jRUBUnaligned] <;> rfl
omit [Trig K] in
theorem jPrismatic_local (a : Fin 3) : (jPrismatic a : Joint K).Local := by
  constructor <;> intros <;> simp_all [jPrismatic] <;> rfl
omit [Trig K] in
theorem jPrismaticUnaligned_local (u : V3 K) : (jPrismaticUnaligned u : Joint K).Local := by
  constructor <;> intros <;> simp_all [jPrismaticUnaligned] <;> rfl
omit [Trig K] in
theorem jTranslation_local : (jTranslation : Joint K).Local := by
  constructor <;> intros <;> simp_all [jTranslation, V3.ofSeq] <;> rfl
omit [Trig K] in
theorem jPlanar_local : (jPlanar : Joint K).Local := by
  constructor <;> intros <;> simp_all [jPlanar] <;> rfl
omit [Trig K] in
theorem jSpherical_local : (jSpherical : Joint K).Local := by
  constructor <;> intros <;> simp_all [jSpherical, V3.ofSeq] <;> rfl
omit [Trig K] in
theorem jFreeFlyer_local : (jFreeFlyer : Joint K).Local := by
  constructor <;> intros <;> simp_all [jFreeFlyer, V3.ofSeq, seg] <;> rfl
theorem jSphericalZYX_local : (jSphericalZYX : Joint K).Local := by
  constructor <;> intros <;> simp_all [jSphericalZYX, angMul, sum_range_succ] <;> rfl
theorem jUniversal_local (u v : V3 K) : (jUniversal u v : Joint K).Local := by
  constructor <;> intros <;> simp_all [jUniversal, angMul, sum_range_succ] <;> rfl
theorem jHelical_local (a : Fin 3) (p : K) : (jHelical a p : Joint K).Local := by
  constructor <;> intros <;> simp_all [jHelical] <;> rfl
theorem jHelicalUnaligned_local (u : V3 K) (p : K) : (jHelicalUnaligned u p : Joint K).Local := by
  constructor <;> intros <;> simp_all [jHelicalUnaligned] <;> rfl
end joints

theorem compLoop_congr {x y v w : ℕ → K} : ∀ (l : List (SE3 K × Joint K)) (oq ov : ℕ), (∀ p ∈ l, p.2.Local) →
    (∀ k, k < (l.map fun p => p.2.nq).sum → x (oq + k) = y (oq + k)) →
    (∀ k, k < (l.map fun p => p.2.nv).sum → v (ov + k) = w (ov + k)) →
    compLoop x v (compElts l oq ov) = compLoop y w (compElts l oq ov) := by
  intro l
  induction l with
  | nil => intro oq ov _ _ _; rfl
  | cons p l ih =>
    intro oq ov hl hx hv
    obtain ⟨p, J⟩ := p
    have hJ : J.Local := hl (p, J) (by simp)
    simp only [List.map_cons, List.sum_cons] at hx hv
    have e := ih (oq + J.nq) (ov + J.nv) (fun p hp => hl p (by simp [hp]))
      (fun k hk => by rw [add_assoc]; exact hx _ (by omega)) (fun k hk => by rw [add_assoc]; exact hv _ (by omega))
    simp only [compElts, compLoop, e]
    have a1 : ∀ k < J.nq, seg x oq k = seg y oq k := fun k hk => hx k (by omega)
    have a2 : ∀ k < J.nv, seg v ov k = seg w ov k := fun k hk => hv k (by omega)
    unfold compStep
    simp only [hJ.M _ _ a1, hJ.S _ _ a1, hJ.v _ _ _ _ a1 a2, hJ.c _ _ _ _ a1 a2]

theorem compLoop_rest {x : ℕ → K} : ∀ (l : List (SE3 K × Joint K)) (oq ov : ℕ), (∀ p ∈ l, p.2.Local) →
    ∀ a, compLoop x (fun _ => 0) (compElts l oq ov) = some a → a.v = 0 ∧ a.c = 0 := by
  intro l
  induction l with
  | nil => intro oq ov _ a h; cases h
  | cons p l ih =>
    intro oq ov hl a h
    obtain ⟨p, J⟩ := p
    have hJ : J.Local := hl (p, J) (by simp)
    have hs : seg (fun _ => (0 : K)) ov = fun _ => 0 := rfl
    simp only [compElts, compLoop, Option.some.injEq] at h
    subst h
    unfold compStep
    rcases e : compLoop x (fun _ => 0) (compElts l (oq + J.nq) (ov + J.nv)) with _ | b
    · simp [hs, hJ.still, hJ.rest]
    · obtain ⟨b1, b2⟩ := ih _ _ (fun p hp => hl p (by simp [hp])) b e
      simp only [hs, hJ.still, hJ.rest, b1, b2]
      constructor <;> ext <;> simp

theorem jComposite_local {l : List (SE3 K × Joint K)} (hl : ∀ p ∈ l, p.2.Local) : (jComposite l).Local := by
  constructor
  · intro x y h
    simp only [jComposite]
    rw [compLoop_congr l 0 0 hl (y := y) (w := 0) (fun k hk => by rw [zero_add]; exact h k hk) (fun _ _ => rfl)]
  · intro x y h
    simp only [jComposite]
    rw [compLoop_congr l 0 0 hl (y := y) (w := 0) (fun k hk => by rw [zero_add]; exact h k hk) (fun _ _ => rfl)]
  · intro x y v w h h'
    simp only [jComposite]
    rw [compLoop_congr l 0 0 hl (y := y) (w := w) (fun k hk => by rw [zero_add]; exact h k hk)
      (fun k hk => by rw [zero_add]; exact h' k hk)]
  · intro x y v w h h'
    simp only [jComposite]
    rw [compLoop_congr l 0 0 hl (y := y) (w := w) (fun k hk => by rw [zero_add]; exact h k hk)
      (fun k hk => by rw [zero_add]; exact h' k hk)]
  · intro x
    simp only [jComposite]
    rcases e : compLoop x (fun _ => 0) (compElts l 0 0) with _ | b
    · rfl
    · exact (compLoop_rest l 0 0 hl b e).1
  · intro x
    simp only [jComposite]
    rcases e : compLoop x (fun _ => 0) (compElts l 0 0) with _ | b
    · rfl
    · exact (compLoop_rest l 0 0 hl b e).2

namespace Sys.Welded
variable {s r : Sys K} {L : List ℕ} {Mref : ℕ → SE3 K}

/-- where body `i` goes -/
local notation "at" => attach s.par s.pl Mref L

theorem att_ok (h : Sys.Welded s r L Mref) {i : ℕ} (hi : i < s.n) : (at i).1 ≤ i ∧ (at i).1 ∉ L :=
  attach_ok h.par.2 h.lock i hi

theorem one_of_mem (h : Sys.Welded s r L Mref) {i : ℕ} (hL : i ∈ L) : 1 ≤ i := by
  rcases Nat.eq_zero_or_pos i with rfl | h1
  · exact absurd hL h.lock
  · exact h1

theorem att_lock (h : Sys.Welded s r L Mref) {i : ℕ} (hi : i < s.n) (hL : i ∈ L) :
    at i = ((at (s.par i)).1, (at (s.par i)).2 * s.pl i * Mref i) :=
  attach_lock hL (h.par.2 i (h.one_of_mem hL) hi)

theorem att_valid (h : Sys.Welded s r L Mref) (hpl : ∀ i, 1 ≤ i → i < s.n → (s.pl i).Valid) :
    ∀ i, i < s.n → (at i).2.Valid := by
  intro i hi; refine s.joint_ind h.par ?_ ?_ i hi <;> clear hi i
  · rw [attach_kept h.lock]; exact SE3.valid_one
  · intro i h1 hi ih
    by_cases hL : i ∈ L
    · rw [h.att_lock hi hL]
      exact (ih.mul (hpl i h1 hi)).mul (h.valid i h1 hi hL)
    · rw [attach_kept hL]; exact SE3.valid_one

/-- the tables of the reduced model are those of a tree -/
theorem rparOk (h : Sys.Welded s r L Mref) : ∀ i, 1 ≤ i → i < s.n → i ∉ L → r.par (rank L i) < rank L i := by
  intro i h1 hi hL
  rw [h.rpar i h1 hi hL]
  have hp := h.par.2 i h1 hi
  have := h.att_ok (i := s.par i) (by omega)
  exact rank_lt (by omega) this.2

theorem exists_kept (h : Sys.Welded s r L Mref) {k : ℕ} (h1 : 1 ≤ k) (hk : k < r.n) :
    ∃ i, 1 ≤ i ∧ i < s.n ∧ i ∉ L ∧ rank L i = k := by
  rw [h.n] at hk
  obtain ⟨i, hi, hL, rfl⟩ := exists_rank hk
  refine ⟨i, ?_, hi, hL, rfl⟩
  rcases Nat.eq_zero_or_pos i with rfl | h2
  · exact absurd h1 (by simp [rank, keptBefore])
  · exact h2

theorem parOk (h : Sys.Welded s r L Mref) : ParOk r.par r.n := by
  refine ⟨?_, fun k h1 hk => ?_⟩
  · rw [h.n]; exact rank_pos h.lock h.par.1
  · obtain ⟨i, i1, i2, i3, rfl⟩ := h.exists_kept h1 hk
    exact h.rparOk i i1 i2 i3

variable {qref q q' v v' a a' w w' : ℕ → K}

section
variable (h : Sys.Welded s r L Mref) (hl : ∀ i, 1 ≤ i → i < s.n → (s.jt i).Local)
  (hM : ∀ i, 1 ≤ i → i < s.n → i ∈ L → Mref i = (s.jt i).M (seg qref (s.iq i))) (hc : s.SameConfig r L qref q q')
include h hl hM hc

theorem X_kept {i : ℕ} (h1 : 1 ≤ i) (hi : i < s.n) (hL : i ∉ L) : r.X q' (rank L i) = (at (s.par i)).2 * s.X q i := by
  unfold Sys.X
  rw [h.rpl i h1 hi hL, h.rjt i h1 hi hL, SE3.mul_assoc]
  congr 2
  exact (hl i h1 hi).M _ _ (fun k hk => hc.kept i h1 hi hL k hk)

theorem X_lock {i : ℕ} (h1 : 1 ≤ i) (hi : i < s.n) (hL : i ∈ L) : s.X q i = s.pl i * Mref i := by
  unfold Sys.X
  rw [hM i h1 hi hL]
  congr 1
  exact (hl i h1 hi).M _ _ (fun k hk => hc.lock i h1 hi hL k hk)

/-- placements -/
theorem oM_eq : ∀ j, j < s.n → s.oM q j = r.oM q' (rank L (at j).1) * (at j).2 := by
  intro i hi; refine s.joint_ind h.par ?_ ?_ i hi <;> clear hi i
  · rw [attach_kept h.lock, Sys.oM_zero]
    change 1 = r.oM q' 0 * 1
    rw [Sys.oM_zero, SE3.mul_one]
  · intro i h1 hi ih
    have hp := h.par.2 i h1 hi
    rw [s.oM_step h1 hp, ih]
    by_cases hL : i ∈ L
    · rw [h.att_lock hi hL, X_lock h hl hM hc h1 hi hL]
      simp only [SE3.mul_assoc]
    · rw [attach_kept hL]
      have hr := h.rparOk i h1 hi hL
      rw [r.oM_step (rank_pos h.lock h1) hr, h.rpar i h1 hi hL, X_kept h hl hM hc h1 hi hL, SE3.mul_one]
      simp only [SE3.mul_assoc]

theorem S_kept {i : ℕ} (h1 : 1 ≤ i) (hi : i < s.n) (hL : i ∉ L) : r.S q' (rank L i) = s.S q i := by
  unfold Sys.S
  rw [h.rjt i h1 hi hL]
  exact (hl i h1 hi).S _ _ (fun k hk => hc.kept i h1 hi hL k hk)

theorem jvel_kept (hw : s.SameVel r L w w') {i : ℕ} (h1 : 1 ≤ i) (hi : i < s.n) (hL : i ∉ L) :
    r.jvel q' w' (rank L i) = s.jvel q w i := by
  unfold Sys.jvel
  rw [S_kept h hl hM hc h1 hi hL]
  have : r.jnv (rank L i) = s.jnv i := by unfold Sys.jnv; rw [h.rjt i h1 hi hL]
  rw [this]
  exact comb_congr (fun _ _ => rfl) (fun k hk => hw.kept i h1 hi hL k hk)

omit h hl hM hc in
theorem jvel_lock (hw : s.SameVel r L w w') {i : ℕ} (h1 : 1 ≤ i) (hi : i < s.n) (hL : i ∈ L) : s.jvel q w i = 0 := by
  rw [← s.jvel_zero q i]
  exact comb_congr (fun _ _ => rfl) (fun k hk => hw.lock i h1 hi hL k hk)

theorem cb_kept (hv : s.SameVel r L v v') {i : ℕ} (h1 : 1 ≤ i) (hi : i < s.n) (hL : i ∉ L) :
    r.cb q' v' (rank L i) = s.cb q v i := by
  unfold Sys.cb
  rw [h.rjt i h1 hi hL]
  exact (hl i h1 hi).c _ _ _ _ (fun k hk => hc.kept i h1 hi hL k hk) (fun k hk => hv.kept i h1 hi hL k hk)

omit h hM hc in
theorem cb_lock (hv : s.SameVel r L v v') {i : ℕ} (h1 : 1 ≤ i) (hi : i < s.n) (hL : i ∈ L) : s.cb q v i = 0 := by
  rw [← (hl i h1 hi).rest (s.qs q i)]
  exact (hl i h1 hi).c _ _ _ _ (fun _ _ => rfl) (fun k hk => hv.lock i h1 hi hL k hk)

variable (hq : s.At q)
include hq

omit hq in
/-- the transform of a kept joint is rigid -/
theorem rX_inv (hq : s.At q) {i : ℕ} (h1 : 1 ≤ i) (hi : i < s.n) (hL : i ∉ L) (u : Motion K) :
    (r.X q' (rank L i)).actInv u = (s.X q i).actInv ((at (s.par i)).2.actInv u) := by
  rw [X_kept h hl hM hc h1 hi hL, SE3.mul_actInv (h.att_valid hq.pl _ (by have := h.par.2 i h1 hi; omega)) (s.X_valid hq h1 hi)]

/-- velocities -/
theorem V_eq (hw : s.SameVel r L w w') : ∀ j, j < s.n →
    s.V q w j = (at j).2.actInv (r.V q' w' (rank L (at j).1)) := by
  intro i hi; refine s.joint_ind h.par ?_ ?_ i hi <;> clear hi i
  · rw [attach_kept h.lock, Sys.V_zero]
    change 0 = (1 : SE3 K).actInv (r.V q' w' 0)
    rw [Sys.V_zero]; simp
  · intro i h1 hi ih
    have hp := h.par.2 i h1 hi
    have hpv := h.att_valid hq.pl (s.par i) (by omega)
    rw [s.V_step h1 hp, ih]
    by_cases hL : i ∈ L
    · rw [h.att_lock hi hL, jvel_lock hw h1 hi hL, zero_add, ← SE3.mul_actInv hpv (s.X_valid hq h1 hi),
        X_lock h hl hM hc h1 hi hL, SE3.mul_assoc]
    · rw [attach_kept hL]
      have hr := h.rparOk i h1 hi hL
      rw [r.V_step (rank_pos h.lock h1) hr, rX_inv h hl hM hc hq h1 hi hL, h.rpar i h1 hi hL,
        jvel_kept h hl hM hc hw h1 hi hL, SE3.one_actInv]

/-- accelerations -/
theorem A_eq (hv : s.SameVel r L v v') (ha : s.SameVel r L a a') (a0 : Motion K) : ∀ j, j < s.n →
    s.A a0 q v a j = (at j).2.actInv (r.A a0 q' v' a' (rank L (at j).1)) := by
  intro i hi; refine s.joint_ind h.par ?_ ?_ i hi <;> clear hi i
  · rw [attach_kept h.lock, Sys.A_zero]
    change a0 = (1 : SE3 K).actInv (r.A a0 q' v' a' 0)
    rw [Sys.A_zero]; simp
  · intro i h1 hi ih
    have hp := h.par.2 i h1 hi
    have hpv := h.att_valid hq.pl (s.par i) (by omega)
    rw [s.A_step h1 hp, ih]
    by_cases hL : i ∈ L
    · rw [h.att_lock hi hL, jvel_lock ha h1 hi hL, jvel_lock hv h1 hi hL, cb_lock hl hv h1 hi hL, Motion.cross_zero, zero_add,
        zero_add, zero_add, ← SE3.mul_actInv hpv (s.X_valid hq h1 hi), X_lock h hl hM hc h1 hi hL, SE3.mul_assoc]
    · have hV := V_eq h hl hM hc hq hv i hi
      rw [attach_kept hL] at hV ⊢
      rw [SE3.one_actInv] at hV
      have hr := h.rparOk i h1 hi hL
      rw [r.A_step (rank_pos h.lock h1) hr, rX_inv h hl hM hc hq h1 hi hL, h.rpar i h1 hi hL,
        jvel_kept h hl hM hc hv h1 hi hL, jvel_kept h hl hM hc ha h1 hi hL, cb_kept h hl hM hc hv h1 hi hL, SE3.one_actInv, hV]

omit h hl hM hc hq in
theorem bodyF_add (Y Z : M6 K) (A V : Motion K) :
    (Y + Z).mulMF A + V.crossF ((Y + Z).mulMF V)
      = (Y.mulMF A + V.crossF (Y.mulMF V)) + (Z.mulMF A + V.crossF (Z.mulMF V)) := by
  rw [M6.add_mulMF, M6.add_mulMF, Motion.crossF_add]
  ext <;> simp <;> ring

omit h hl hM hc hq in
theorem bodyF_sum {ι : Type*} (t : Finset ι) (Y : ι → M6 K) (A V : Motion K) :
    (∑ i ∈ t, Y i).mulMF A + V.crossF ((∑ i ∈ t, Y i).mulMF V) = ∑ i ∈ t, ((Y i).mulMF A + V.crossF ((Y i).mulMF V)) := by
  classical
  induction t using Finset.induction_on with
  | empty => simp
  | insert i t hi ih => rw [sum_insert hi, sum_insert hi, bodyF_add, ih]

omit h hl hM hc hq in
/-- power of the force of a body moved by a rigid transform -/
theorem bodyF_dot {M : SE3 K} (hM : M.Valid) (Y : Inertia K) (W A V : Motion K) :
    (M.actInv W).dot (Y.mul (M.actInv A) + (M.actInv V).crossF (Y.mul (M.actInv V)))
      = W.dot ((Y.act M).matrix.mulMF A + V.crossF ((Y.act M).matrix.mulMF V)) := by
  rw [Inertia.matrix_mulMF, Inertia.matrix_mulMF, Inertia.act_mul hM, Inertia.act_mul hM]
  have hv : V = M.act (M.actInv V) := (SE3.act_actInv hM V).symm
  have : V.crossF (M.actF (Y.mul (M.actInv V))) = M.actF ((M.actInv V).crossF (Y.mul (M.actInv V))) := by
    conv_lhs => rw [hv]
    rw [SE3.actInv_act hM, Motion.act_crossF hM]
  rw [this, ← SE3.actF_add]
  exact SE3.dot_actInv _ _ _

/-- the power of the forces of the bodies is the power of the forces of the reduced bodies -/
theorem power_eq (hw : s.SameVel r L w w') (hv : s.SameVel r L v v') (A A' : ℕ → Motion K)
    (hA : ∀ i, i < s.n → A i = (at i).2.actInv (A' (rank L (at i).1))) :
    ∑ i ∈ Ico 1 s.n, (s.V q w i).dot ((s.Y i).mul (A i) + (s.V q v i).crossF ((s.Y i).mul (s.V q v i)))
      = ∑ k ∈ Ico 1 r.n, (r.V q' w' k).dot ((r.Y k).mul (A' k) + (r.V q' v' k).crossF ((r.Y k).mul (r.V q' v' k))) := by
  classical
  have hpos := h.par.1
  rw [h.n, ← sum_rank h.lock _ _ hpos]
  let g : ℕ → K := fun i => (r.V q' w' (rank L (at i).1)).dot
    (((s.Y i).act (at i).2).matrix.mulMF (A' (rank L (at i).1))
      + (r.V q' v' (rank L (at i).1)).crossF (((s.Y i).act (at i).2).matrix.mulMF (r.V q' v' (rank L (at i).1))))
  have e1 : ∀ i ∈ Ico 1 s.n, (s.V q w i).dot ((s.Y i).mul (A i) + (s.V q v i).crossF ((s.Y i).mul (s.V q v i))) = g i := by
    intro i hi
    rw [mem_Ico] at hi
    rw [V_eq h hl hM hc hq hw i hi.2, V_eq h hl hM hc hq hv i hi.2, hA i hi.2, bodyF_dot (h.att_valid hq.pl i hi.2)]
  rw [sum_congr rfl e1]
  have e2 : ∀ k ∈ (Ico 1 s.n).filter (fun k => k ∉ L), (r.V q' w' (rank L k)).dot ((r.Y (rank L k)).mul (A' (rank L k))
      + (r.V q' v' (rank L k)).crossF ((r.Y (rank L k)).mul (r.V q' v' (rank L k))))
      = ∑ i ∈ range s.n, if (at i).1 = k then g i else 0 := by
    intro k hk
    rw [mem_filter, mem_Ico] at hk
    rw [← Inertia.matrix_mulMF, ← Inertia.matrix_mulMF, h.rY k hk.1.1 hk.1.2 hk.2, bodyF_sum, Motion.dot_sum, sum_filter]
    apply sum_congr rfl
    intro i hi
    by_cases e : (at i).1 = k
    · rw [if_pos e, if_pos e]
      simp only [g, e]
    · rw [if_neg e, if_neg e]
  rw [sum_congr rfl e2, sum_comm, range_eq_Ico, sum_eq_sum_Ico_succ_bot hpos]
  have e3 : ∀ i, i < s.n → (∑ k ∈ Ico 1 s.n with k ∉ L, if (at i).1 = k then g i else 0) = if (at i).1 = 0 then 0 else g i := by
    intro i hi
    rw [sum_ite_eq]
    have := h.att_ok hi
    by_cases e : (at i).1 = 0
    · rw [if_pos e, if_neg (by simp [e])]
    · rw [if_neg e, if_pos (by rw [mem_filter, mem_Ico]; exact ⟨⟨by omega, by omega⟩, this.2⟩)]
  rw [e3 0 hpos, attach_kept h.lock, if_pos rfl, zero_add]
  apply sum_congr rfl
  intro i hi
  rw [mem_Ico] at hi
  rw [e3 i hi.2]
  split
  · rename_i e
    simp only [g, e]
    have : r.V q' w' (rank L 0) = 0 := r.V_zero q' w'
    rw [this, Motion.zero_dot]
  · rfl

/-- inverse dynamics: same generalized forces on the kept joints, up to the armature -/
theorem rnea_eq (hsw : s.WF) (hrw : r.WF) (hrq : r.At q') (hv : s.SameVel r L v v') (ha : s.SameVel r L a a')
    (hw : s.SameVel r L w w') (d d' : Data K) :
    s.dotv w (rnea s d q v a).tau - s.dotv w (fun k => s.arm k * a k)
      = r.dotv w' (rnea r d' q' v' a').tau - r.dotv w' (fun k => r.arm k * a' k) := by
  rw [rnea_power hsw d hq, rnea_power hrw d' hrq, add_sub_cancel_right, add_sub_cancel_right]
  unfold Sys.F
  rw [h.grav]
  exact power_eq h hl hM hc hq hw hv _ _ (A_eq h hl hM hc hq hv ha (-s.grav))

/-- the kinetic-energy form, up to the armature -/
theorem massForm_eq (ha : s.SameVel r L a a') (hw : s.SameVel r L w w') :
    s.massForm q w a - s.dotv w (fun k => s.arm k * a k) = r.massForm q' w' a' - r.dotv w' (fun k => r.arm k * a' k) := by
  unfold Sys.massForm
  rw [add_sub_cancel_right, add_sub_cancel_right]
  have h0 : s.SameVel r L (fun _ => 0) (fun _ => 0) := ⟨fun _ _ _ _ _ _ => rfl, fun _ _ _ _ _ _ => rfl⟩
  have := power_eq h hl hM hc hq hw h0 (s.V q a) (r.V q' a') (V_eq h hl hM hc hq ha)
  have z1 : ∀ i ∈ Ico 1 s.n, (s.V q w i).dot ((s.Y i).mul (s.V q a i)
      + (s.V q (fun _ => 0) i).crossF ((s.Y i).mul (s.V q (fun _ => 0) i))) = (s.V q w i).dot ((s.Y i).mul (s.V q a i)) := by
    intro i hi
    rw [s.V_zero_vel h.par q i (mem_Ico.1 hi).2, Motion.zero_crossF, add_zero]
  have z2 : ∀ i ∈ Ico 1 r.n, (r.V q' w' i).dot ((r.Y i).mul (r.V q' a' i)
      + (r.V q' (fun _ => 0) i).crossF ((r.Y i).mul (r.V q' (fun _ => 0) i))) = (r.V q' w' i).dot ((r.Y i).mul (r.V q' a' i)) := by
    intro i hi
    rw [r.V_zero_vel h.parOk q' i (mem_Ico.1 hi).2, Motion.zero_crossF, add_zero]
  rw [← sum_congr rfl z1, ← sum_congr rfl z2, this]

/-- the reduced model is lawful where the full one is -/
theorem at_of : r.At q' := by
  refine ⟨fun k h1 hk => ?_, fun k h1 hk => ?_⟩
  · obtain ⟨i, i1, i2, i3, rfl⟩ := h.exists_kept h1 hk
    rw [h.rpl i i1 i2 i3]
    exact (h.att_valid hq.pl _ (by have := h.par.2 i i1 i2; omega)).mul (hq.pl i i1 i2)
  · obtain ⟨i, i1, i2, i3, rfl⟩ := h.exists_kept h1 hk
    rw [h.rjt i i1 i2 i3]
    exact (hl i i1 i2).ok (hq.jt i i1 i2) (fun k hk => (hc.kept i i1 i2 i3 k hk).symm)
end
end Sys.Welded
end Pin
