import Verif.Algo.CoriolisLemmas
import Verif.Algo.CentroidalLemmas
import Verif.Algo.MinverseLemmas
import Verif.Algo.EnergyLemmas
import Verif.Spec.Matrix
import Verif.Algo.Regressor

/-!
# Sequences of calls on one `Data`

`Call` lists the algorithms that are given everything they need (configuration, velocity, ...); `Cont` lists the ones
that by contract go on from what an earlier call left in `data`. A history is any list of both. The three facts about
`data` that some algorithms rely on without establishing them are collected in `HInv`, and shown to survive every call.
-/

set_option linter.unusedSectionVars false

namespace Pin
open Finset
variable {K : Type*}

/-- what the algorithms expect of `data` and do not establish themselves: zeros in `M` and `C` between different branches,
and zero in the `joint_v` of the joints whose `calc` never writes it -/
structure HInv [Zero K] (s : Sys K) (d : Data K) : Prop where
  M : s.BranchZero d.M
  C : s.BranchZero d.C
  jv : ∀ i, (s.jt i).setsV = false → ∀ k, (d.joints i).jv k = 0

/-- `e` has the same three quantities as `d` -/
structure Same (s : Sys K) (d e : Data K) : Prop where
  M : e.M = d.M
  C : e.C = d.C
  jv : ∀ i, (s.jt i).setsV = false → (e.joints i).jv = (d.joints i).jv

theorem Same.refl (s : Sys K) (d : Data K) : Same s d d := ⟨rfl, rfl, fun _ _ => rfl⟩
theorem Same.trans {s : Sys K} {d e f : Data K} (h : Same s d e) (g : Same s e f) : Same s d f :=
  ⟨g.M.trans h.M, g.C.trans h.C, fun i hi => (g.jv i hi).trans (h.jv i hi)⟩
theorem Same.inv [Zero K] {s : Sys K} {d e : Data K} (h : Same s d e) (g : HInv s d) : HInv s e :=
  ⟨h.M ▸ g.M, h.C ▸ g.C, fun i hi k => by rw [h.jv i hi]; exact g.jv i hi k⟩

/-- a step that leaves the three quantities alone -/
def Calm (s : Sys K) (f : Data K → Data K) : Prop := ∀ d, Same s d (f d)

theorem Calm.fwd {s : Sys K} {step : ℕ → Data K → Data K} (h : ∀ i, Calm s (step i)) (n : ℕ) : Calm s (fwd step n) := by
  intro d
  unfold Pin.fwd
  generalize List.range' 1 (n - 1) = l
  induction l generalizing d with
  | nil => exact .refl ..
  | cons a l ih => exact (h a d).trans (ih _)
theorem Calm.bwd {s : Sys K} {step : ℕ → Data K → Data K} (h : ∀ i, Calm s (step i)) (n : ℕ) : Calm s (bwd step n) := by
  intro d
  unfold Pin.bwd
  generalize List.range' 1 (n - 1) = l
  induction l with
  | nil => exact .refl ..
  | cons a l ih => exact ih.trans (h a _)
theorem Calm.comp {s : Sys K} {f g : Data K → Data K} (h : Calm s f) (h' : Calm s g) : Calm s (fun d => g (f d)) :=
  fun d => (h d).trans (h' _)

theorem upd_jv {s : Sys K} (f : ℕ → JD K) (a : ℕ) (x : JD K) (h : (s.jt a).setsV = false → x.jv = (f a).jv) :
    ∀ i, (s.jt i).setsV = false → (upd f a x i).jv = (f i).jv := by
  intro i hi
  by_cases e : i = a
  · subst e; rw [upd_self]; exact h hi
  · rw [upd_ne _ _ e]
theorem calcV_jv {J : Joint K} (h : J.setsV = false) (q v : ℕ → K) (x : JD K) : (J.calcV q v x).jv = x.jv := by
  simp [Joint.calcV, h]

theorem Same.up {s : Sys K} {d e e' : Data K} (h : Same s d e) (hM : e'.M = e.M) (hC : e'.C = e.C)
    (hj : e'.joints = e.joints) : Same s d e' := ⟨hM.trans h.M, hC.trans h.C, fun i hi => by rw [hj]; exact h.jv i hi⟩
/-- nothing but an update of other fields -/
macro "done'" : tactic => `(tactic| exact ⟨rfl, rfl, fun _ _ => rfl⟩)
/-- undo a forward loop and updates of other fields after it -/
macro "lf" h:term : tactic => `(tactic| refine Same.trans ?_ (Same.up (Calm.fwd $h _ _) rfl rfl rfl))
/-- undo a backward loop and updates of other fields after it -/
macro "lb" h:term : tactic => `(tactic| refine Same.trans ?_ (Same.up (Calm.bwd $h _ _) rfl rfl rfl))
/-- undo an earlier algorithm and updates of other fields after it -/
macro "al" h:term : tactic => `(tactic| refine Same.trans ?_ (Same.up ($h _) rfl rfl rfl))

/-- closes `Calm` for a single step: unfold, then each of the three quantities is unchanged by inspection -/
macro "calm" : tactic => `(tactic| (
  intro d
  dsimp only
  try split_ifs
  all_goals first
    | exact ⟨rfl, rfl, fun _ _ => rfl⟩
    | exact ⟨rfl, rfl, upd_jv _ _ _ fun _ => rfl⟩
    | exact ⟨rfl, rfl, upd_jv _ _ _ fun h => calcV_jv h _ _ _⟩))

section ring
variable [CommRing K] (s : Sys K)

theorem fk0Step_calm (q : ℕ → K) (i : ℕ) : Calm s (fk0Step s q i) := by unfold fk0Step; calm
theorem fk1Step_calm (q v : ℕ → K) (i : ℕ) : Calm s (fk1Step s q v i) := by unfold fk1Step; calm
theorem fk2Step_calm (q v a : ℕ → K) (i : ℕ) : Calm s (fk2Step s q v a i) := by
  intro d
  refine Same.trans (fk1Step_calm s q v i d) ?_
  exact ⟨rfl, rfl, fun _ _ => rfl⟩
theorem rneaFwd_calm (q v a : ℕ → K) (i : ℕ) : Calm s (rneaFwd s q v a i) := by unfold rneaFwd; calm
theorem rneaBwd_calm (i : ℕ) : Calm s (rneaBwd s i) := by unfold rneaBwd pushF; calm
theorem nleFwd_calm (q v : ℕ → K) (i : ℕ) : Calm s (nleFwd s q v i) := by unfold nleFwd; calm
theorem nleBwd_calm (i : ℕ) : Calm s (nleBwd s i) := by unfold nleBwd pushF; calm
theorem gravFwd_calm (q : ℕ → K) (i : ℕ) : Calm s (gravFwd s q i) := by unfold gravFwd; calm
theorem gravBwd_calm (i : ℕ) : Calm s (gravBwd s i) := by unfold gravBwd pushF; calm

theorem forwardKinematics_calm (q : ℕ → K) : Calm s (forwardKinematics s · q) := Calm.fwd (fk0Step_calm s q) _
theorem forwardKinematicsV_calm (q v : ℕ → K) : Calm s (forwardKinematicsV s · q v) := by
  intro d
  dsimp only [forwardKinematicsV]
  lf (fk1Step_calm s q v); done'
theorem forwardKinematicsA_calm (q v a : ℕ → K) : Calm s (forwardKinematicsA s · q v a) := by
  intro d
  dsimp only [forwardKinematicsA]
  lf (fk2Step_calm s q v a); done'
theorem updateGlobalPlacements_calm : Calm s (updateGlobalPlacements s) := Calm.fwd (fun i => by calm) _

theorem rnea_calm (q v a : ℕ → K) : Calm s (rnea s · q v a) := by
  intro d
  dsimp only [rnea]
  lb (rneaBwd_calm s); lf (rneaFwd_calm s q v a); done'
theorem rneaFext_calm (q v a : ℕ → K) (fe : ℕ → Force K) : Calm s (rneaFext s · q v a fe) := by
  intro d
  dsimp only [rneaFext]
  lb (rneaBwd_calm s); lf (fun i => (rneaFwd_calm s q v a i).comp (g := fun d => { d with f := upd d.f i (d.f i - fe i) }) (fun d => by done')); done'
theorem nonLinearEffects_calm (q v : ℕ → K) : Calm s (nonLinearEffects s · q v) := by
  intro d
  dsimp only [nonLinearEffects]
  lb (nleBwd_calm s); lf (nleFwd_calm s q v); done'
theorem computeGeneralizedGravity_calm (q : ℕ → K) : Calm s (computeGeneralizedGravity s · q) := by
  intro d
  dsimp only [computeGeneralizedGravity]
  lb (gravBwd_calm s); lf (gravFwd_calm s q); done'
theorem computeStaticTorque_calm (q : ℕ → K) (fe : ℕ → Force K) : Calm s (computeStaticTorque s · q fe) := by
  intro d
  dsimp only [computeStaticTorque]
  lb (rneaBwd_calm s); lf (fun i => (gravFwd_calm s q i).comp (g := fun d => { d with f := upd d.f i (d.f i - fe i) }) (fun d => by done')); done'

theorem jacobianStep_calm (q : ℕ → K) (i : ℕ) : Calm s (jacobianStep s q i) := by unfold jacobianStep; calm
theorem jacobianTvStep_calm (q v : ℕ → K) (i : ℕ) : Calm s (jacobianTvStep s q v i) := by unfold jacobianTvStep; calm
theorem computeJointJacobians_calm (q : ℕ → K) : Calm s (computeJointJacobians s · q) :=
  Calm.fwd (jacobianStep_calm s q) _
theorem computeJointJacobiansTimeVariation_calm (q v : ℕ → K) :
    Calm s (computeJointJacobiansTimeVariation s · q v) := Calm.fwd (jacobianTvStep_calm s q v) _
theorem computeJointJacobiansData_calm : Calm s (computeJointJacobiansData s) := Calm.fwd (fun i => by calm) _
theorem updateFramePlacements_calm (fr : ℕ → Frame K) (n : ℕ) : Calm s (updateFramePlacements fr n) :=
  Calm.fwd (fun i => by calm) _
theorem updateFramePlacement_calm (fr : ℕ → Frame K) (f : ℕ) : Calm s (updateFramePlacement fr · f) := by
  unfold updateFramePlacement; calm
theorem upLoop_calm {α : Type*} {step : ℕ → Data K × α → Data K × α} (h : ∀ i x, Same s x.1 (step i x).1) (fuel i : ℕ)
    (x : Data K × α) : Same s x.1 (upLoop s.par step fuel i x).1 := by
  induction fuel generalizing i x with
  | zero => exact .refl ..
  | succ n ih =>
    unfold upLoop
    split
    · exact (h i x).trans (ih _ _)
    · exact .refl ..
theorem foldl_calm {α : Type*} {step : ℕ → Data K × α → Data K × α} (h : ∀ i x, Same s x.1 (step i x).1) (l : List ℕ)
    (x : Data K × α) : Same s x.1 (l.foldl (fun x i => step i x) x).1 := by
  induction l generalizing x with
  | nil => exact .refl ..
  | cons a l ih => exact (h a x).trans (ih _)
theorem foldlD_calm {step : ℕ → Data K → Data K} (h : ∀ i, Calm s (step i)) (l : List ℕ) :
    Calm s (fun d => l.foldl (fun x i => step i x) d) := by
  intro d
  induction l generalizing d with
  | nil => exact .refl ..
  | cons a l ih => exact (h a d).trans (ih _)
theorem jacobianLocalStep_calm (q : ℕ → K) (i : ℕ) (x : Data K × (ℕ → Motion K)) :
    Same s x.1 (jacobianLocalStep s q i x).1 :=
  ⟨rfl, rfl, upd_jv _ _ _ fun _ => rfl⟩
theorem computeJointJacobian_calm (q : ℕ → K) (j : ℕ) (J : ℕ → Motion K) :
    Calm s (fun d => (computeJointJacobian s d q j J).1) := by
  intro d
  refine Same.trans ?_ (upLoop_calm s (jacobianLocalStep_calm s q) _ _ _)
  done'
theorem computeFrameJacobian_calm (q : ℕ → K) (sp : List ℕ) (f j : ℕ) (P : SE3 K) (rf : RF) (J : ℕ → Motion K) :
    Calm s (fun d => (computeFrameJacobian s d q sp f j P rf J).1) := by
  intro d
  cases rf
  · exact foldl_calm s (fun i x => fk0Step_calm s q i x.1) _ (d, J)
  · refine Same.trans ?_ (upLoop_calm s (jacobianLocalStep_calm s q) _ _ _)
    done'
  · exact (foldlD_calm s (fk0Step_calm s q) sp.tail d).trans ⟨rfl, rfl, fun _ _ => rfl⟩

theorem jtrFwd_calm (q v a : ℕ → K) (i : ℕ) : Calm s (jtrFwd s q v a i) := by unfold jtrFwd; calm
end ring

section field
variable [Field K] (s : Sys K)

theorem abaLocalFwd1_calm (q v : ℕ → K) (i : ℕ) : Calm s (abaLocalFwd1 s q v i) := by unfold abaLocalFwd1; calm
theorem abaLocalBwd_calm (i : ℕ) : Calm s (abaLocalBwd s i) := by unfold abaLocalBwd; calm
theorem abaLocalFwd2_calm (i : ℕ) : Calm s (abaLocalFwd2 s i) := by unfold abaLocalFwd2; calm
theorem abaLocalEnd_calm (i : ℕ) : Calm s (abaLocalEnd s i) := by unfold abaLocalEnd; calm
theorem abaWorldFwd1_calm (q v : ℕ → K) (i : ℕ) : Calm s (abaWorldFwd1 s q v i) := by unfold abaWorldFwd1; calm
theorem abaWorldBwd_calm (i : ℕ) : Calm s (abaWorldBwd s i) := by unfold abaWorldBwd; calm
theorem abaWorldFwd2_calm (i : ℕ) : Calm s (abaWorldFwd2 s i) := by unfold abaWorldFwd2; calm
theorem abaWorldEnd_calm (i : ℕ) : Calm s (abaWorldEnd s i) := by unfold abaWorldEnd; calm
theorem abaLocal_calm (q v t : ℕ → K) : Calm s (abaLocal s · q v t) := by
  intro d
  dsimp only [abaLocal]
  lb (abaLocalEnd_calm s); lf (abaLocalFwd2_calm s); lb (abaLocalBwd_calm s); lf (abaLocalFwd1_calm s q v); done'
theorem abaLocalFext_calm (q v t : ℕ → K) (fe : ℕ → Force K) : Calm s (abaLocalFext s · q v t fe) := by
  intro d
  dsimp only [abaLocalFext]
  lb (abaLocalEnd_calm s); lf (abaLocalFwd2_calm s); lb (abaLocalBwd_calm s)
  lf (fun i => (abaLocalFwd1_calm s q v i).comp (g := fun d => { d with f := upd d.f i (d.f i - fe i) }) (fun d => by done')); done'
theorem abaWorld_calm (q v t : ℕ → K) : Calm s (abaWorld s · q v t) := by
  intro d
  dsimp only [abaWorld]
  lb (abaWorldEnd_calm s); lf (abaWorldFwd2_calm s); lb (abaWorldBwd_calm s); lf (abaWorldFwd1_calm s q v); done'
theorem abaWorldFext_calm (q v t : ℕ → K) (fe : ℕ → Force K) : Calm s (abaWorldFext s · q v t fe) := by
  intro d
  dsimp only [abaWorldFext]
  lf (abaWorldFwd2_calm s); lb (abaWorldBwd_calm s)
  lf (fun i => (abaWorldFwd1_calm s q v i).comp
    (g := fun d => { d with of := upd d.of i (d.of i - (d.oMi i).actF (fe i)) }) (fun d => by done')); done'

theorem minvFwd1_calm (q : ℕ → K) (i : ℕ) : Calm s (minvFwd1 s q i) := by unfold minvFwd1; calm
theorem minvRows_calm (i : ℕ) : Calm s (minvRows s i) := by unfold minvRows; calm
theorem minvBwd_calm (i : ℕ) : Calm s (minvBwd s i) := by
  intro d
  unfold minvBwd
  dsimp only
  refine Same.trans (e := { d with
    joints := upd d.joints i ((d.joints i).calcAba (s.jnv i) (seg d.J (s.iv i)) (seg s.arm (s.iv i)) (d.oYaba i)) })
    ⟨rfl, rfl, upd_jv _ _ _ fun _ => rfl⟩ ((minvRows_calm s i _).trans ?_)
  split <;> exact ⟨rfl, rfl, fun _ _ => rfl⟩
theorem minvFwd2_calm (i : ℕ) : Calm s (minvFwd2 s i) := by unfold minvFwd2; calm
theorem computeMinverse_calm (q : ℕ → K) : Calm s (computeMinverse s · q) := by
  intro d
  dsimp only [computeMinverse]
  lf (minvFwd2_calm s); lb (minvBwd_calm s); lf (minvFwd1_calm s q); done'
theorem computeMinverseNoUpdate_calm : Calm s (computeMinverseNoUpdate s) := by
  intro d
  dsimp only [computeMinverseNoUpdate]
  lf (minvFwd2_calm s); lb (minvRows_calm s); done'

theorem computeTotalMassD_calm : Calm s (computeTotalMassD s) := by unfold computeTotalMassD; calm
theorem computeSubtreeMasses_calm : Calm s (computeSubtreeMasses s) := by
  intro d
  dsimp only [computeSubtreeMasses]
  lb (fun i => by calm); lf (fun i => by calm); done'
theorem comFwd_calm (l : KLevel) (i : ℕ) : Calm s (comFwd s l i) := by unfold comFwd; calm
theorem comBwd_calm (l : KLevel) (sub : Bool) (i : ℕ) : Calm s (comBwd s l sub i) := by unfold comBwd; calm
theorem centerOfMassD_calm (l : KLevel) (sub : Bool) : Calm s (centerOfMassD s · l sub) := by
  intro d
  have h := fun e => (Calm.fwd (comFwd_calm s l) s.n e).trans (Calm.bwd (comBwd_calm s l sub) s.n _)
  unfold centerOfMassD
  dsimp only
  split_ifs <;> refine Same.trans ?_ (Same.up (h _) rfl rfl rfl) <;> done'
theorem centerOfMass_calm (q : ℕ → K) (sub : Bool) : Calm s (centerOfMass s · q sub) :=
  (forwardKinematics_calm s q).comp (centerOfMassD_calm s _ sub)
theorem centerOfMassV_calm (q v : ℕ → K) (sub : Bool) : Calm s (centerOfMassV s · q v sub) :=
  (forwardKinematicsV_calm s q v).comp (centerOfMassD_calm s _ sub)
theorem centerOfMassA_calm (q v a : ℕ → K) (sub : Bool) : Calm s (centerOfMassA s · q v a sub) :=
  (forwardKinematicsA_calm s q v a).comp (centerOfMassD_calm s _ sub)
theorem getComFromCrba_calm : Calm s getComFromCrba := by unfold getComFromCrba; calm
theorem getJacobianComFromCrba_calm : Calm s getJacobianComFromCrba := by unfold getJacobianComFromCrba; calm
theorem jacComBwd_calm (sub : Bool) (i : ℕ) (x : Data K × (ℕ → V3 K)) : Same s x.1 (jacComBwd s sub i x).1 := by
  unfold jacComBwd; dsimp only; split <;> exact ⟨rfl, rfl, fun _ _ => rfl⟩
theorem foldr_calm {α : Type*} {step : ℕ → Data K × α → Data K × α} (h : ∀ i x, Same s x.1 (step i x).1) (l : List ℕ)
    (x : Data K × α) : Same s x.1 (l.foldr step x).1 := by
  induction l with
  | nil => exact .refl ..
  | cons a l ih => exact ih.trans (h a _)
theorem jacComFwd_calm (i : ℕ) : Calm s (jacComFwd s i) := by unfold jacComFwd; calm
theorem jacobianCenterOfMassD_calm (sub : Bool) : Calm s (jacobianCenterOfMassD s · sub) := fun d =>
  Same.trans (e := { d with com := upd d.com 0 0, mass := upd d.mass 0 0 }) ⟨rfl, rfl, fun _ _ => rfl⟩ <|
    (Calm.fwd (jacComFwd_calm s) s.n _).trans <|
    (foldr_calm s (jacComBwd_calm s sub) (List.range' 1 (s.n - 1)) (_, fun _ => 0)).trans ⟨rfl, rfl, fun _ _ => rfl⟩
theorem jacobianCenterOfMass_calm (q : ℕ → K) (sub : Bool) : Calm s (jacobianCenterOfMass s · q sub) :=
  (forwardKinematics_calm s q).comp (jacobianCenterOfMassD_calm s sub)
theorem jacSubComBwd_calm (root i : ℕ) (x : Data K × (ℕ → V3 K)) : Same s x.1 (jacSubComBwd s root i x).1 :=
  ⟨rfl, rfl, fun _ _ => rfl⟩
theorem jacobianSubtreeCenterOfMassD_calm [LinearOrder K] (l : List ℕ) (root : ℕ) (res : ℕ → V3 K) (d : Data K) {x}
    (h : jacobianSubtreeCenterOfMassD s d l root res = some x) : Same s d x.1 := by
  have key : ∀ e : Data K, Same s e ((l.foldr (jacComBwd s true) (e, res)).1) :=
    fun e => foldr_calm s (jacComBwd_calm s true) l (e, res)
  have k2 := foldlD_calm s (jacComFwd_calm s) l
  unfold jacobianSubtreeCenterOfMassD at h
  dsimp only at h
  split_ifs at h
  · injection h with h; subst h
    refine Same.trans ?_ (key _)
    refine Same.trans ?_ (Same.up (k2 _) rfl rfl rfl)
    done'
  · injection h with h; subst h
    refine Same.trans ?_ (upLoop_calm s (jacSubComBwd_calm s root) _ _ _)
    refine Same.trans ?_ (key _)
    refine Same.trans ?_ (Same.up (k2 _) rfl rfl rfl)
    done'
theorem jacobianSubtreeCenterOfMass_calm [LinearOrder K] (q : ℕ → K) (l : List ℕ) (root : ℕ) (res : ℕ → V3 K)
    (d : Data K) {x} (h : jacobianSubtreeCenterOfMass s d q l root res = some x) : Same s d x.1 :=
  (forwardKinematics_calm s q d).trans (jacobianSubtreeCenterOfMassD_calm s l root res _ h)

theorem cmFwd_calm (i : ℕ) : Calm s (cmFwd s i) := by unfold cmFwd; calm
theorem cmBwd_calm (i : ℕ) : Calm s (cmBwd s i) := by unfold cmBwd; calm
theorem dcmFwd_calm (i : ℕ) : Calm s (dcmFwd s i) := by unfold dcmFwd cmFwd; calm
theorem dcmBwd_calm (i : ℕ) : Calm s (dcmBwd s i) := by unfold dcmBwd cmBwd; calm
theorem computeCentroidalMomentumD_calm : Calm s (computeCentroidalMomentumD s) := by
  intro d
  dsimp only [computeCentroidalMomentumD]
  lb (cmBwd_calm s); lf (cmFwd_calm s); done'
theorem computeCentroidalMomentumTimeVariationD_calm : Calm s (computeCentroidalMomentumTimeVariationD s) := by
  intro d
  dsimp only [computeCentroidalMomentumTimeVariationD]
  lb (dcmBwd_calm s); lf (dcmFwd_calm s); done'
theorem computeCentroidalMomentum_calm (q v : ℕ → K) : Calm s (computeCentroidalMomentum s · q v) :=
  (forwardKinematicsV_calm s q v).comp (computeCentroidalMomentumD_calm s)
theorem computeCentroidalMomentumTimeVariation_calm (q v a : ℕ → K) :
    Calm s (computeCentroidalMomentumTimeVariation s · q v a) :=
  (forwardKinematicsA_calm s q v a).comp (computeCentroidalMomentumTimeVariationD_calm s)

theorem kineticStep_calm (i : ℕ) : Calm s (kineticStep s i) := by unfold kineticStep; calm
theorem potentialStep_calm (i : ℕ) : Calm s (potentialStep s i) := by unfold potentialStep; calm
theorem computeKineticEnergyD_calm : Calm s (computeKineticEnergyD s) := by
  intro d
  dsimp only [computeKineticEnergyD]
  lf (kineticStep_calm s); done'
theorem computePotentialEnergyD_calm : Calm s (computePotentialEnergyD s) := by
  intro d
  dsimp only [computePotentialEnergyD]
  lf (potentialStep_calm s); done'
theorem computeMechanicalEnergyD_calm : Calm s (computeMechanicalEnergyD s) := by
  intro d
  dsimp only [computeMechanicalEnergyD]
  lf (fun i => (kineticStep_calm s i).comp (potentialStep_calm s i)); done'
end field

section ordered
variable [Field K] [LinearOrder K] [IsStrictOrderedRing K] [HasEps K] (s : Sys K)

theorem ccrbaBwd_calm (i : ℕ) : Calm s (ccrbaBwd s i) := by unfold ccrbaBwd; calm
theorem dccrbaFwd_calm (i : ℕ) : Calm s (dccrbaFwd s i) := by unfold dccrbaFwd; calm
theorem dccrbaBwd_calm (i : ℕ) : Calm s (dccrbaBwd s i) := by unfold dccrbaBwd; calm
theorem computeCentroidalMap_calm (q : ℕ → K) : Calm s (computeCentroidalMap s · q) := by
  intro d
  dsimp only [computeCentroidalMap]
  lb (ccrbaBwd_calm s); lf (fun i => by calm); al (forwardKinematics_calm s q); done'
theorem ccrba_calm (q v : ℕ → K) : Calm s (ccrba s · q v) := by
  intro d
  dsimp only [ccrba]
  al (computeCentroidalMap_calm s q); done'
theorem dccrbaCommon_calm (q v : ℕ → K) : Calm s (dccrbaCommon s · q v) := by
  intro d
  dsimp only [dccrbaCommon]
  lb (dccrbaBwd_calm s); lf (dccrbaFwd_calm s); al (forwardKinematicsV_calm s q v); done'
theorem dccrba_calm (q v : ℕ → K) : Calm s (dccrba s · q v) := by
  intro d
  dsimp only [dccrba]
  al (dccrbaCommon_calm s q v); done'
theorem computeCentroidalMapTimeVariation_calm (q v : ℕ → K) :
    Calm s (computeCentroidalMapTimeVariation s · q v) := by
  intro d
  dsimp only [computeCentroidalMapTimeVariation]
  al (dccrbaCommon_calm s q v); done'

theorem crbaWorldFwd_calm (q : ℕ → K) (i : ℕ) : Calm s (crbaWorldFwd s q i) := by unfold crbaWorldFwd; calm
theorem crbaLocalFwd_calm (q : ℕ → K) (i : ℕ) : Calm s (crbaLocalFwd s q i) := by unfold crbaLocalFwd; calm
theorem coriolisFwd_calm (q v : ℕ → K) (i : ℕ) : Calm s (coriolisFwd s q v i) := by unfold coriolisFwd; calm
theorem getCoriolisFwd_calm (i : ℕ) : Calm s (getCoriolisFwd s i) := by unfold getCoriolisFwd; calm

variable {s}
theorem putBlock_branchZero (h : s.Packed) (hc : Compact s.par s.n) {A : ℕ → ℕ → K} (hA : s.BranchZero A)
    (B : ℕ → ℕ → K) {i : ℕ} (h1 : 1 ≤ i) (hi : i < s.n) :
    s.BranchZero (putBlock A (s.iv i) (s.iv i) (s.jnv i) (s.nvSub i) B) := by
  classical
  intro a j a1 ha j1 hj hn hn' k hk l hl
  rw [putBlock_row h hc A B h1 hi a1 ha hk j1 hj hl, if_neg]
  · exact hA a j a1 ha j1 hj hn hn' k hk l hl
  · rintro ⟨rfl, h'⟩; exact hn h'
theorem coriolisRows_branchZero (h : s.Packed) (hf : s.Full) (hc : Compact s.par s.n) {C : ℕ → ℕ → K}
    (hC : s.BranchZero C) (J dJ : ℕ → Motion K) (dFdv Ag : ℕ → Force K) (B : M6 K) {i : ℕ} (h1 : 1 ≤ i)
    (hi : i < s.n) : s.BranchZero (coriolisRows s i J dJ dFdv Ag B C) := by
  classical
  intro a j a1 ha j1 hj hn hn' k hk l hl
  rw [coriolisRows_at h hf hc h1 hi J dJ dFdv Ag B C a1 ha hk j1 hj hl]
  split
  · rename_i e; subst e
    rw [if_neg hn, if_neg]
    · exact hC a j a1 ha j1 hj hn hn' k hk l hl
    · intro h'; exact hn' ((anc_step a1 (h.par.2 a a1 ha)).2 (Or.inr h'))
  · exact hC a j a1 ha j1 hj hn hn' k hk l hl

theorem addArmature_inv (h : s.Packed) {d : Data K} (hd : HInv s d) : HInv s (addArmature s d) := by
  refine ⟨?_, hd.C, hd.jv⟩
  intro a j a1 ha j1 hj hn hn' k hk l hl
  change (if s.iv a + k = s.iv j + l then _ else d.M (s.iv a + k) (s.iv j + l)) = 0
  rw [if_neg, hd.M a j a1 ha j1 hj hn hn' k hk l hl]
  intro e
  rcases Nat.lt_trichotomy a j with hlt | rfl | hlt
  · have := h.mono a1 hlt hj; omega
  · exact hn (anc_refl h.par ha)
  · have := h.mono j1 hlt ha; omega

theorem crbaWorld_inv (h : s.Packed) (hc : Compact s.par s.n) {d : Data K} (hd : HInv s d) (q : ℕ → K) :
    HInv s (crbaWorld s d q) := by
  have h1 : HInv s (fwd (crbaWorldFwd s q) s.n { d with oYcrb := upd d.oYcrb 0 0 }) :=
    (Calm.fwd (crbaWorldFwd_calm s q) s.n _).inv ⟨hd.M, hd.C, hd.jv⟩
  have h2 := bwd_ind (step := crbaWorldBwd s) (n := s.n) (P := fun _ e => HInv s e) h.par.1 h1
    (fun i e h1 hi he => by
      unfold crbaWorldBwd; dsimp only
      refine ⟨?_, he.C, he.jv⟩
      dsimp only
      exact putBlock_branchZero h hc he.M _ h1 hi)
  have h3 := addArmature_inv h h2
  exact ⟨h3.M, h3.C, h3.jv⟩
theorem crbaLocal_inv (h : s.Packed) (hc : Compact s.par s.n) {d : Data K} (hd : HInv s d) (q : ℕ → K) :
    HInv s (crbaLocal s d q) := by
  have h1 : HInv s (fwd (crbaLocalFwd s q) s.n d) := (Calm.fwd (crbaLocalFwd_calm s q) s.n d).inv hd
  have h2 := bwd_ind (step := crbaLocalBwd s) (n := s.n) (P := fun _ e => HInv s e) h.par.1 h1
    (fun i e h1 hi he => by
      unfold crbaLocalBwd; dsimp only
      split <;> refine ⟨?_, he.C, he.jv⟩ <;> dsimp only <;> exact putBlock_branchZero h hc he.M _ h1 hi)
  exact addArmature_inv h h2
theorem computeCoriolisMatrix_inv (h : s.Packed) (hf : s.Full) (hc : Compact s.par s.n) {d : Data K} (hd : HInv s d)
    (q v : ℕ → K) : HInv s (computeCoriolisMatrix s d q v) := by
  have h1 : HInv s (fwd (coriolisFwd s q v) s.n d) := (Calm.fwd (coriolisFwd_calm s q v) s.n d).inv hd
  exact bwd_ind (step := coriolisBwd s) (n := s.n) (P := fun _ e => HInv s e) h.par.1 h1
    (fun i e h1 hi he => by
      unfold coriolisBwd; dsimp only
      split <;> refine ⟨he.M, ?_, he.jv⟩ <;> dsimp only <;>
        exact coriolisRows_branchZero h hf hc he.C _ _ _ _ _ h1 hi)
theorem getCoriolisMatrix_inv (h : s.Packed) (hf : s.Full) (hc : Compact s.par s.n) {d : Data K} (hd : HInv s d) :
    HInv s (getCoriolisMatrix s d) := by
  have h1 : HInv s (fwd (getCoriolisFwd s) s.n d) := (Calm.fwd (getCoriolisFwd_calm s) s.n d).inv hd
  exact bwd_ind (step := getCoriolisBwd s) (n := s.n) (P := fun _ e => HInv s e) h.par.1 h1
    (fun i e h1 hi he => by
      unfold getCoriolisBwd; dsimp only
      split <;> refine ⟨he.M, ?_, he.jv⟩ <;> dsimp only <;>
        exact coriolisRows_branchZero h hf hc he.C _ _ _ _ _ h1 hi)

end ordered
end Pin
