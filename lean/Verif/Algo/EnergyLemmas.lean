import Verif.Algo.Energy
import Verif.Algo.Passes
import Verif.Algo.World

/-! # What `energy.hxx` computes -/

set_option linter.unusedSectionVars false

namespace Pin
open Finset

/-- a sum over the packed segments is the sum over `[0, nv)` -/
theorem Sys.Packed.sum_seg {K α : Type*} [AddCommMonoid α] {s : Sys K} [CommRing K] (h : s.Packed) (f : ℕ → α) :
    ∑ i ∈ Ico 1 s.n, ∑ k ∈ range (s.jnv i), f (s.iv i + k) = ∑ r ∈ range s.nv, f r := by
  have key : ∀ m, 1 ≤ m → m ≤ s.n → ∑ i ∈ Ico 1 m, ∑ k ∈ range (s.jnv i), f (s.iv i + k)
      = ∑ r ∈ range (∑ j ∈ Ico 1 m, s.jnv j), f r := by
    intro m hm
    induction m, hm using Nat.le_induction with
    | base => intro _; simp
    | succ m hm ih =>
      intro hmn
      rw [sum_Ico_succ_top hm, sum_Ico_succ_top hm, ih (by omega), sum_range_add, h.iv m hm (by omega)]
  rw [key s.n h.par.1 le_rfl, h.nv]

variable {K : Type*} [Field K] {s : Sys K}

theorem kinetic_loop (hp : 1 ≤ s.n) (d : Data K) :
    (computeKineticEnergyD s d).kinetic_energy
      = (∑ i ∈ Ico 1 s.n, ((s.Y i).vtiv (d.v i)
        + ∑ k ∈ range (s.jnv i), s.arm (s.iv i + k) * ((d.joints i).jv k * (d.joints i).jv k))) * (1 / 2) := by
  unfold computeKineticEnergyD
  have := fwd_ind (step := kineticStep s) (n := s.n) (d := { d with kinetic_energy := 0 })
    (P := fun k (e : Data K) => e.v = d.v ∧ e.joints = d.joints ∧ e.kinetic_energy
      = ∑ i ∈ Ico 1 k, ((s.Y i).vtiv (d.v i)
        + ∑ k ∈ range (s.jnv i), s.arm (s.iv i + k) * ((d.joints i).jv k * (d.joints i).jv k))) hp
    ⟨rfl, rfl, by simp⟩
    (by
      rintro i e h1 hi ⟨a, b, c⟩
      refine ⟨a, b, ?_⟩
      change e.kinetic_energy + (s.Y i).vtiv (e.v i)
        + ∑ k ∈ range (s.jnv i), s.arm (s.iv i + k) * ((e.joints i).jv k * (e.joints i).jv k) = _
      rw [sum_Ico_succ_top h1, a, b, c, add_assoc])
  change Data.kinetic_energy (fwd _ _ _) * (1 / 2) = _
  rw [this.2.2]

theorem potential_loop (hp : 1 ≤ s.n) (d : Data K) :
    (computePotentialEnergyD s d).potential_energy
      = - ∑ i ∈ Ico 1 s.n,
        (s.Y i).mass * ((d.oMi i).trans + (d.oMi i).rot.mulVec (s.Y i).lever).dot s.grav.lin := by
  unfold computePotentialEnergyD
  have := fwd_ind (step := potentialStep s) (n := s.n) (d := { d with potential_energy := 0 })
    (P := fun k (e : Data K) => e.oMi = d.oMi ∧ e.potential_energy
      = - ∑ i ∈ Ico 1 k,
        (s.Y i).mass * ((d.oMi i).trans + (d.oMi i).rot.mulVec (s.Y i).lever).dot s.grav.lin) hp
    ⟨rfl, by simp⟩
    (by
      rintro i e h1 hi ⟨a, c⟩
      refine ⟨a, ?_⟩
      change e.potential_energy
        - (s.Y i).mass * ((e.oMi i).trans + (e.oMi i).rot.mulVec (s.Y i).lever).dot s.grav.lin = _
      rw [sum_Ico_succ_top h1, a, c]; ring)
  exact this.2

/-- the two loops of `computeMechanicalEnergy` are independent -/
theorem mechanical_eq (hp : 1 ≤ s.n) (d : Data K) :
    (computeMechanicalEnergyD s d).mechanical_energy
      = (computeKineticEnergyD s d).kinetic_energy + (computePotentialEnergyD s d).potential_energy := by
  rw [kinetic_loop hp, potential_loop hp]
  unfold computeMechanicalEnergyD
  have := fwd_ind (step := fun i d => potentialStep s i (kineticStep s i d)) (n := s.n)
    (d := { d with kinetic_energy := 0, potential_energy := 0 })
    (P := fun k (e : Data K) => e.v = d.v ∧ e.joints = d.joints ∧ e.oMi = d.oMi ∧ e.kinetic_energy
      = (∑ i ∈ Ico 1 k, ((s.Y i).vtiv (d.v i)
        + ∑ k ∈ range (s.jnv i), s.arm (s.iv i + k) * ((d.joints i).jv k * (d.joints i).jv k))) ∧
      e.potential_energy = - ∑ i ∈ Ico 1 k,
        (s.Y i).mass * ((d.oMi i).trans + (d.oMi i).rot.mulVec (s.Y i).lever).dot s.grav.lin) hp
    ⟨rfl, rfl, rfl, by simp, by simp⟩
    (by
      rintro i e h1 hi ⟨a, b, c, x, y⟩
      refine ⟨a, b, c, ?_, ?_⟩
      · change e.kinetic_energy + (s.Y i).vtiv (e.v i)
          + ∑ k ∈ range (s.jnv i), s.arm (s.iv i + k) * ((e.joints i).jv k * (e.joints i).jv k) = _
        rw [sum_Ico_succ_top h1, a, b, x, add_assoc]
      · change e.potential_energy
          - (s.Y i).mass * ((e.oMi i).trans + (e.oMi i).rot.mulVec (s.Y i).lever).dot s.grav.lin = _
        rw [sum_Ico_succ_top h1, c, y]; ring)
  change Data.kinetic_energy (fwd _ _ _) * (1 / 2) + Data.potential_energy (fwd _ _ _) = _
  rw [this.2.2.2.1, this.2.2.2.2]

theorem fk1_jv (hp : 1 ≤ s.n) (d : Data K) (q v : ℕ → K) : ∀ i, 1 ≤ i → i < s.n →
    ((forwardKinematicsV s d q v).joints i).jv
      = if (s.jt i).setsV then s.vs v i else (d.joints i).jv := by
  unfold forwardKinematicsV
  have := fwd_ind (step := fk1Step s q v) (n := s.n) (d := { d with v := upd d.v 0 0 })
    (P := fun k (e : Data K) => ∀ i, 1 ≤ i → i < s.n → (e.joints i).jv
      = if i < k ∧ (s.jt i).setsV then s.vs v i else (d.joints i).jv) hp
    (by intro i h1 hi; rw [if_neg (by omega)])
    (by
      intro i e h1 hi ih j hj1 hj
      have e1 : (fk1Step s q v i e).joints
          = upd e.joints i ((s.jt i).calcV (s.qs q i) (s.vs v i) (e.joints i)) := by
        unfold fk1Step; split <;> rfl
      rw [e1]
      by_cases hji : j = i
      · subst hji
        rw [upd_self]
        change (if (s.jt j).setsV then s.vs v j else (e.joints j).jv) = _
        have := ih j hj1 hj
        rw [if_neg (by omega)] at this
        rw [this]
        by_cases hs : (s.jt j).setsV = true
        · rw [if_pos hs, if_pos ⟨by omega, hs⟩]
        · rw [if_neg hs, if_neg (fun h => hs h.2)]
      · rw [upd_ne _ _ hji, ih j hj1 hj]
        congr 1
        simp only [eq_iff_iff, and_congr_left_iff]
        intro _; omega)
  intro i h1 hi
  rw [this i h1 hi]
  simp [hi]

/-- kinetic energy returned by `computeKineticEnergy(model, data, q, v)` -/
theorem kinetic_eq (h : s.Packed) (d : Data K) {q : ℕ → K} (hq : s.At q) (v : ℕ → K)
    (hs : ∀ i, 1 ≤ i → i < s.n → (s.jt i).setsV = true) :
    (computeKineticEnergy s d q v).kinetic_energy = 1 / 2 * s.massForm q v v := by
  unfold computeKineticEnergy
  rw [kinetic_loop h.par.1, mul_comm]
  congr 1
  rw [sum_add_distrib]
  unfold Sys.massForm
  congr 1
  · apply sum_congr rfl
    intro i hi
    rw [mem_Ico] at hi
    rw [((fk1_ok h.par d hq v).2 i hi.1 hi.2).1, Inertia.vtiv_eq]
  · unfold Sys.dotv
    rw [← h.sum_seg]
    apply sum_congr rfl
    intro i hi
    rw [mem_Ico] at hi
    apply sum_congr rfl
    intro k _
    rw [fk1_jv h.par.1 d q v i hi.1 hi.2, if_pos (hs i hi.1 hi.2)]
    simp only [Sys.vs, seg]; ring

/-- potential energy returned by `computePotentialEnergy(model, data, q)` -/
theorem potential_eq (hp : ParOk s.par s.n) (d : Data K) (q : ℕ → K) :
    (computePotentialEnergy s d q).potential_energy
      = - ∑ i ∈ Ico 1 s.n,
        (s.Y i).mass * ((s.oM q i).trans + (s.oM q i).rot.mulVec (s.Y i).lever).dot s.grav.lin := by
  unfold computePotentialEnergy
  rw [potential_loop hp.1]
  congr 1
  apply sum_congr rfl
  intro i hi
  rw [mem_Ico] at hi
  rw [(fk0_ok hp d q i hi.1 hi.2).2.1]

theorem mechanical_eq' (h : s.Packed) (d : Data K) {q : ℕ → K} (hq : s.At q) (v : ℕ → K) :
    (computeMechanicalEnergy s d q v).mechanical_energy
      = (computeKineticEnergy s d q v).kinetic_energy + (computePotentialEnergy s d q).potential_energy := by
  unfold computeMechanicalEnergy
  rw [mechanical_eq h.par.1, potential_eq h.par, potential_loop h.par.1]
  congr 2
  apply sum_congr rfl
  intro i hi
  rw [mem_Ico] at hi
  rw [((fk1_ok h.par d hq v).1 i hi.1 hi.2).2.1]

end Pin
