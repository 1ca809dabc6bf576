import Verif.Model.AppendExamples
import Verif.Props.Dynamics

/-!
# C37: `appendModel`

The specification is in `Verif/Spec/Append.lean`: `inA A r i` and `inB A B r p j` are the joints of the result that bear the
names of joint `i` of `A` and joint `j` of `B` (the universe of `B` being the joint `p` of the frame).
-/

set_option linter.unusedSectionVars false

namespace Pin
open Finset Model

section
variable {K P : Type*} [Field K] [LinearOrder K] [IsStrictOrderedRing K] [HasEps K]
variable {p0 p1 p2 : P} {A B r : Model K P} {frame : ℕ} {fr : Frame K} {aMb : SE3 K}

/-- what is asked of the arguments: two constructed models whose joint names are all different, a frame of the first with one
of the types of the library -/
structure Appendable (A B : Model K P) (p0 p1 : P) (frame : ℕ) (fr : Frame K) : Prop where
  builtA : Built p0 A
  builtB : Built p1 B
  namesA : A.names.Nodup
  namesB : B.names.Nodup
  frame : A.frames[frame]? = some fr
  type : ANY &&& fr.type ≠ 0

theorem Appendable.lt (h : Appendable A B p0 p1 frame fr) : fr.parentJoint < A.njoints :=
  h.builtA.base.fpar fr (List.mem_of_getElem? h.frame)

theorem append_end (h : Appendable A B p0 p1 frame fr) (hr : appendModel A B p2 frame aMb = .ok r ()) : AEnd A B r fr aMb :=
  appendModel_inv h.builtA h.builtB h.namesA h.namesB h.frame h.type hr

/-- Every joint of `A` and of `B` is a joint of the result, once, and there is no other joint; it keeps its name, type, sizes and
parameters, its parent and its placement, but for the joints of `B` that hang from its universe: they hang from the joint of
the frame, at the placement of the frame followed by `aMb`. -/
theorem C37_joints (h : Appendable A B p0 p1 frame fr) (hr : appendModel A B p2 frame aMb = .ok r ()) :
    Merged A B r fr aMb ∧ r.names.Nodup ∧ r.name 0 = "universe" := by
  have e := append_end h hr
  refine ⟨e.merged h.builtA.inv h.builtB.inv h.lt, e.nd, ?_⟩
  unfold Model.name
  rw [e.names]
  rfl

/-- The mimic joints of `A` mimic the joint that stands for the one they mimicked, with its indexes. -/
theorem C37_mimicA (h : Appendable A B p0 p1 frame fr) (hr : appendModel A B p2 frame aMb = .ok r ()) {i : ℕ} {e : JEntry P}
    {y : ℕ × ℕ × ℕ} (h1 : 1 ≤ i) (hi : i < A.njoints) (he : A.joints[i]? = some e) (hy : e.desc.mimic = some y) :
    ∃ o q : JEntry P, r.joints[inA A r i]? = some o ∧ r.joints[r.getJointId (A.name y.1)]? = some q ∧
      o.desc.mimic = some (r.getJointId (A.name y.1), q.idx_q, q.idx_v) ∧ o.idx_q = q.idx_q ∧ o.idx_v = q.idx_v := by
  have e := append_end h hr
  rw [inA_pos h1]
  exact e.mimic (b := false) (src_hyp h.builtA h.builtB h.namesA h.namesB) h.builtA.inv h.builtB.inv h.lt h1 hi he hy

/-- The same for the mimic joints of `B`. -/
theorem C37_mimicB (h : Appendable A B p0 p1 frame fr) (hr : appendModel A B p2 frame aMb = .ok r ()) {i : ℕ} {e : JEntry P}
    {y : ℕ × ℕ × ℕ} (h1 : 1 ≤ i) (hi : i < B.njoints) (he : B.joints[i]? = some e) (hy : e.desc.mimic = some y) :
    ∃ o q : JEntry P, r.joints[inB A B r fr.parentJoint i]? = some o ∧ r.joints[r.getJointId (B.name y.1)]? = some q ∧
      o.desc.mimic = some (r.getJointId (B.name y.1), q.idx_q, q.idx_v) ∧ o.idx_q = q.idx_q ∧ o.idx_v = q.idx_v := by
  have e := append_end h hr
  rw [inB_pos h1]
  exact e.mimic (b := true) (src_hyp h.builtA h.builtB h.namesA h.namesB) h.builtA.inv h.builtB.inv h.lt h1 hi he hy

/-- Masses: each joint has the mass it had; what `B` has on its universe goes to the joint of the frame. -/
theorem C37_masses (h : Appendable A B p0 p1 frame fr) (hr : appendModel A B p2 frame aMb = .ok r ()) :
    (∀ i < A.njoints, (r.inertia (inA A r i)).mass = (A.inertia i).mass + if i = fr.parentJoint then (B.inertia 0).mass else 0) ∧
    (∀ j, 1 ≤ j → j < B.njoints → (r.inertia (inB A B r fr.parentJoint j)).mass = (B.inertia j).mass) :=
  ⟨fun _ hi => (append_end h hr).massA h.builtA.inv h.builtB.inv h.lt hi,
    fun _ h1 hj => (append_end h hr).massB h.builtA.inv h.builtB.inv h.lt h1 hj⟩

/-- The total mass of the result, universe included, is the sum of the two total masses. -/
theorem C37_total_mass (h : Appendable A B p0 p1 frame fr) (hr : appendModel A B p2 frame aMb = .ok r ()) :
    ∑ k ∈ range r.njoints, (r.inertia k).mass =
      ∑ i ∈ range A.njoints, (A.inertia i).mass + ∑ j ∈ range B.njoints, (B.inertia j).mass := by
  have M := (C37_joints h hr).1
  obtain ⟨mA, mB⟩ := C37_masses h hr
  have e := append_end h hr
  have split : ∀ (n : ℕ) (f : ℕ → K), 0 < n → ∑ k ∈ range n, f k = f 0 + ∑ k ∈ Ico 1 n, f k := by
    intro n f hn
    rw [range_eq_Ico, sum_eq_sum_Ico_succ_bot hn]
  rw [split _ _ e.inv.lens.pos, M.sum, split B.njoints _ h.builtB.inv.lens.pos]
  have e2 : ∑ j ∈ Ico 1 B.njoints, (r.inertia (inB A B r fr.parentJoint j)).mass = ∑ j ∈ Ico 1 B.njoints, (B.inertia j).mass := by
    refine sum_congr rfl fun j hj => ?_
    rw [mem_Ico] at hj
    exact mB j hj.1 hj.2
  have e1 : (r.inertia 0).mass + ∑ i ∈ Ico 1 A.njoints, (r.inertia (inA A r i)).mass
      = ∑ i ∈ range A.njoints, (A.inertia i).mass + (B.inertia 0).mass := by
    have := split A.njoints (fun i => (r.inertia (inA A r i)).mass) h.builtA.inv.lens.pos
    change _ = (r.inertia 0).mass + _ at this
    rw [← this, sum_congr rfl fun i hi => mA i (mem_range.1 hi), sum_add_distrib, sum_ite_eq', if_pos (mem_range.2 h.lt)]
  rw [← add_assoc, e1, e2, add_assoc]

/-- Inertias, when no frame of the two models carries an inertia: they are kept; what `B` has on its universe is moved to the
joint of the frame. Without the hypothesis on the frames this fails (`C37_inertia_counterexample`). -/
theorem C37_inertias_partial (h : Appendable A B p0 p1 frame fr) (hr : appendModel A B p2 frame aMb = .ok r ())
    (iA : NoFrameInertia A) (iB : NoFrameInertia B) (mA : MassesFine A) (mB : MassesFine B) :
    (∀ i < A.njoints, (r.inertia (inA A r i)).matrix = (A.inertia i).matrix +
      if i = fr.parentJoint then ((B.inertia 0).act (fr.placement * aMb)).matrix else 0) ∧
    (∀ j, 1 ≤ j → j < B.njoints → (r.inertia (inB A B r fr.parentJoint j)).matrix = (B.inertia j).matrix) :=
  ⟨fun _ hi => (append_end h hr).matA h.builtA.inv h.builtB.inv h.lt (clean_of iA iB mA mB) hi,
    fun _ h1 hj => (append_end h hr).matB h.builtA.inv h.builtB.inv h.lt (clean_of iA iB mA mB) h1 hj⟩

/-- The frames of the result are those of `A` and those of `B` but its universe, with their names, types and inertias, on the
joints that stand for theirs and at the same places. -/
theorem C37_frames (h : Appendable A B p0 p1 frame fr) (hr : appendModel A B p2 frame aMb = .ok r ()) :
    (∀ g ∈ r.frames, (∃ f ∈ A.frames, FrameOfA A r f g) ∨ ∃ f ∈ B.frames.drop 1, FrameOfB A B r fr aMb f g) ∧
    (∀ f ∈ A.frames, ∃ g ∈ r.frames, FrameOfA A r f g) ∧
    (∀ f ∈ B.frames.drop 1, ∃ g ∈ r.frames, FrameOfB A B r fr aMb f g) := by
  have e := append_end h hr
  have u : FrameOfA A r universeFrame universeFrame := ⟨rfl, rfl, rfl, rfl, rfl⟩
  have cA : ∀ f g, FrameAt (tgt (src A B) (bases fr) r false f.parentJoint) (place (places fr aMb) false f.parentJoint) f g →
      FrameOfA A r f g := fun f g d => ⟨d.name, d.type, d.inertia, d.parentJoint, d.placement.trans place_false⟩
  have cB : ∀ f g, FrameAt (tgt (src A B) (bases fr) r true f.parentJoint) (place (places fr aMb) true f.parentJoint) f g →
      FrameOfB A B r fr aMb f g := fun f g d => ⟨d.name, d.type, d.inertia, d.parentJoint.trans (e.tgt_true _), d.placement⟩
  refine ⟨fun g hg => ?_, fun f hf => ?_, fun f hf => ?_⟩
  · rcases e.shape g hg with rfl | ⟨b, f, hf, -, d⟩
    · exact Or.inl ⟨_, List.mem_of_getElem? h.builtA.base.f0, u⟩
    · cases b
      · exact Or.inl ⟨f, List.mem_of_mem_drop hf, cA f g d⟩
      · exact Or.inr ⟨f, hf, cB f g d⟩
  · have hlt := h.builtA.base.fpar f hf
    obtain ⟨t, ht⟩ := List.getElem?_of_mem hf
    rcases t with _ | t
    · rw [h.builtA.base.f0] at ht
      obtain rfl := Option.some.inj ht
      exact ⟨_, List.mem_of_getElem? e.f0, u⟩
    · obtain ⟨g, hg, -, d⟩ := e.cop false f (List.mem_of_getElem? (i := t) (by
        change (A.frames.drop 1)[t]? = _
        rw [List.getElem?_drop, Nat.add_comm]; exact ht)) hlt
      exact ⟨g, hg, cA f g d⟩
  · obtain ⟨g, hg, -, d⟩ := e.cop true f hf (h.builtB.base.fpar f (List.mem_of_mem_drop hf))
    exact ⟨g, hg, cB f g d⟩

/-- A frame index out of range is refused. -/
theorem C37_refused_index (h : A.nframes ≤ frame) : ∃ m, appendModel A B p2 frame aMb = .throw m := by
  unfold appendModel
  rw [if_pos (by omega)]
  exact ⟨_, rfl⟩

/-- When a joint of `A` and a joint of `B` have the same name, no model is returned. -/
theorem C37_refused_names (h : Appendable A B p0 p1 frame fr) {i j : ℕ} (h1 : 1 ≤ i) (hi : i < A.njoints) (j1 : 1 ≤ j)
    (hj : j < B.njoints) (he : A.name i = B.name j) : ∀ r, appendModel A B p2 frame aMb ≠ .ok r () := by
  intro r hr
  have M := (C37_joints h hr).1
  refine M.disjoint i j h1 hi j1 hj ?_
  rw [inA_pos h1, inB_pos j1, he]

end

section motion
variable {K : Type*} [Field K] [LinearOrder K] [IsStrictOrderedRing K] [HasEps K]
variable {p0 p1 p2 : Joint K} {A B r : Model K (Joint K)} {frame : ℕ} {fr : Frame K} {aMb : SE3 K}
variable {q q' qB v v' vB a a' aB : ℕ → K} (h : Appendable A B p0 p1 frame fr) (hr : appendModel A B p2 frame aMb = .ok r ())
  (j0 : Joint K) (g g' : Motion K)
  (lA : ∀ i, 1 ≤ i → i < A.njoints → ((A.toSys j0 g).jt i).Local) (lB : ∀ i, 1 ≤ i → i < B.njoints → ((B.toSys j0 g').jt i).Local)
  (sA : (A.toSys j0 g).SameQ (r.toSys j0 g) (inA A r) q q')
  (sB : (B.toSys j0 g').SameQ (r.toSys j0 g) (inB A B r fr.parentJoint) qB q')
include h hr

include lA sA in
/-- Every body of `A` is where it is in `A` alone. -/
theorem C37_placementsA {i : ℕ} (hi : i < A.njoints) : (r.toSys j0 g).oM q' (inA A r i) = (A.toSys j0 g).oM q i := by
  have M := (C37_joints h hr).1
  rcases Nat.eq_zero_or_pos i with rfl | h1
  · change (r.toSys j0 g).oM q' 0 = _
    rw [Sys.oM_zero, Sys.oM_zero]
  · rw [(M.embA h.builtA.inv (append_end h hr).inv j0 g).oM_eq lA sA i hi h1]
    change (r.toSys j0 g).oM q' 0 * 1 * _ = _
    rw [Sys.oM_zero, SE3.one_mul, SE3.one_mul]

include lA lB sA sB in
/-- Every body of `B` is where it is in `B` alone, moved by the placement of the frame in the world and `aMb`. -/
theorem C37_placementsB {j : ℕ} (h1 : 1 ≤ j) (hj : j < B.njoints) :
    (r.toSys j0 g).oM q' (inB A B r fr.parentJoint j) =
      (A.toSys j0 g).oM q fr.parentJoint * fr.placement * aMb * (B.toSys j0 g').oM qB j := by
  have M := (C37_joints h hr).1
  rw [(M.embB h.builtB.inv (append_end h hr).inv j0 g' g).oM_eq lB sB j hj h1]
  change (r.toSys j0 g).oM q' (inA A r fr.parentJoint) * _ * _ = _
  rw [C37_placementsA h hr j0 g lA sA h.lt]
  simp only [SE3.mul_assoc]

variable (qA : (A.toSys j0 g).At q) (qb : (B.toSys j0 g').At qB) (hfv : fr.placement.Valid) (haMb : aMb.Valid)

include lA sA qA in
/-- Every body of `A` moves as in `A` alone. -/
theorem C37_velocitiesA (hvA : (A.toSys j0 g).SameV (r.toSys j0 g) (inA A r) v v') {i : ℕ} (hi : i < A.njoints) :
    (r.toSys j0 g).V q' v' (inA A r i) = (A.toSys j0 g).V q v i :=
  (C37_joints h hr).1.V_A h.builtA.inv (append_end h hr).inv lA qA sA hvA hi

include lA lB sA sB qA qb hfv haMb in
/-- Every body of `B` has its velocity in `B` alone plus that of the joint of the frame, both in its own frame. -/
theorem C37_velocitiesB (hvA : (A.toSys j0 g).SameV (r.toSys j0 g) (inA A r) v v')
    (hvB : (B.toSys j0 g').SameV (r.toSys j0 g) (inB A B r fr.parentJoint) vB v') {j : ℕ} (h1 : 1 ≤ j) (hj : j < B.njoints) :
    (r.toSys j0 g).V q' v' (inB A B r fr.parentJoint j) = (B.toSys j0 g').V qB vB j +
      (fr.placement * aMb * (B.toSys j0 g').oM qB j).actInv ((A.toSys j0 g).V q v fr.parentJoint) :=
  (C37_joints h hr).1.V_B h.builtA.inv h.builtB.inv (append_end h hr).inv h.lt hfv haMb lA lB qA qb sA sB hvA hvB h1 hj

variable (iA : NoFrameInertia A) (iB : NoFrameInertia B) (mA : MassesFine A) (mB : MassesFine B)
include lA lB sA sB qA qb hfv haMb iA iB mA mB

/-- The kinetic-energy form of the result: that of the bodies of `A`, that of what `B` has on its universe, carried by the joint
of the frame, and that of the bodies of `B` on a base that moves. -/
theorem C37_kinetic_partial (hvA : (A.toSys j0 g).SameV (r.toSys j0 g) (inA A r) v v')
    (hvB : (B.toSys j0 g').SameV (r.toSys j0 g) (inB A B r fr.parentJoint) vB v')
    (uA : (A.toSys j0 g).SameV (r.toSys j0 g) (inA A r) a a')
    (uB : (B.toSys j0 g').SameV (r.toSys j0 g) (inB A B r fr.parentJoint) aB a') :
    (r.toSys j0 g).massForm q' v' a' =
      ∑ i ∈ Ico 1 A.njoints, ((A.toSys j0 g).V q v i).dot ((A.inertia i).mul ((A.toSys j0 g).V q a i))
      + ((A.toSys j0 g).V q v fr.parentJoint).dot
          (((B.inertia 0).act (fr.placement * aMb)).mul ((A.toSys j0 g).V q a fr.parentJoint))
      + ∑ j ∈ Ico 1 B.njoints, ((B.toSys j0 g').V qB vB j +
          (fr.placement * aMb * (B.toSys j0 g').oM qB j).actInv ((A.toSys j0 g).V q v fr.parentJoint)).dot
          ((B.inertia j).mul ((B.toSys j0 g').V qB aB j +
            (fr.placement * aMb * (B.toSys j0 g').oM qB j).actInv ((A.toSys j0 g).V q a fr.parentJoint))) :=
  (append_end h hr).massForm h.builtA.inv h.builtB.inv h.lt (clean_of iA iB mA mB) hfv haMb lA lB qA qb sA sB hvA hvB uA uB

/-- The mass matrix `crba` computes on the result has, for the joints of `B`, the entries it computes on `B` alone, without the
armature. -/
theorem C37_mass_matrix_partial (jA : A.JointsOk) (jB : B.JointsOk) (nA : A.NoMimic) (nB : B.NoMimic)
    (hc1 : crbaCheck (B.toSys j0 g').par (B.toSys j0 g').n = true) (hc2 : crbaCheck (r.toSys j0 g).par (r.toSys j0 g).n = true)
    {i k j l : ℕ} (h1 : 1 ≤ i) (hi : i < B.njoints) (hk : k < (B.toSys j0 g').jnv i) (j1 : 1 ≤ j) (hj : j < B.njoints)
    (hkl : l < (B.toSys j0 g').jnv j) :
    symUpper (crbaWorld (r.toSys j0 g) Data.zero q').M ((r.toSys j0 g).iv (inB A B r fr.parentJoint i) + k)
        ((r.toSys j0 g).iv (inB A B r fr.parentJoint j) + l)
      = symUpper (crbaWorld (B.toSys j0 g') Data.zero qB).M ((B.toSys j0 g').iv i + k) ((B.toSys j0 g').iv j + l)
        - if i = j ∧ k = l then B.armature.getD ((B.toSys j0 g').iv i + k) 0 else 0 := by
  have E := append_end h hr
  have M := (C37_joints h hr).1
  have hcl := clean_of iA iB mA mB
  have pB := toSys_packed h.builtB.inv jB nB j0 g'
  have pr := toSys_packed E.inv (M.jointsOk E.inv nA nB jA jB) (M.noMimic E.inv nA nB) j0 g
  have rq := M.at_of hfv haMb lA lB qA qb sA sB
  obtain ⟨x1, x2⟩ := M.unit_B j0 g g' pB pr h1 hi hk
  obtain ⟨y1, y2⟩ := M.unit_B j0 g g' pB pr j1 hj hkl
  have e := C37_kinetic_partial h hr j0 g g' lA lB sA sB qA qb hfv haMb iA iB mA mB x2 x1 y2 y1
  have jn : ∀ j, 1 ≤ j → j < B.njoints → (r.toSys j0 g).jnv (inB A B r fr.parentJoint j) = (B.toSys j0 g').jnv j := by
    intro j j1 hj
    obtain ⟨e, o, he, ho, hp, -⟩ := (M.jointB j j1 hj).1.entry
    unfold Sys.jnv
    rw [(toSys_jt he j0 g').1, (toSys_jt ho j0 g).1, hp]
  have bnd : ∀ j l, 1 ≤ j → j < B.njoints → l < (B.toSys j0 g').jnv j →
      (B.toSys j0 g').iv j + l < (B.toSys j0 g').nv ∧ (r.toSys j0 g).iv (inB A B r fr.parentJoint j) + l < (r.toSys j0 g).nv := by
    intro j l j1 hj hl
    have a := pB.le_nv j1 hj
    have rb := M.rangeB j j1 hj
    have b := pr.le_nv rb.1 rb.2
    rw [jn j j1 hj] at b
    omega
  obtain ⟨b1, b2⟩ := bnd i k h1 hi hk
  obtain ⟨c1, c2⟩ := bnd j l j1 hj hkl
  have m1 : (B.toSys j0 g').MassesOk := fun i _ hi => (mB i hi).2
  have m2 : (r.toSys j0 g).MassesOk := fun k _ hk => (E.mat hcl k hk).1.2
  rw [(C13_entries pB hc1 m1 Data.zero qb (fun _ _ _ _ _ _ _ _ _ _ _ _ => rfl) b1 c1).1,
    (C13_entries pr hc2 m2 Data.zero rq (fun _ _ _ _ _ _ _ _ _ _ _ _ => rfl) b2 c2).1, e]
  have zA : ∀ i < A.njoints, (A.toSys j0 g).V q (fun _ => 0) i = 0 :=
    fun i hi => (A.toSys j0 g).V_zero_vel (toSys_parOk h.builtA.inv j0 g) q i hi
  rw [sum_eq_zero (s := Ico 1 A.njoints) (fun i hi => by rw [zA i (mem_Ico.1 hi).2, Motion.zero_dot]), zA _ h.lt, Motion.zero_dot,
    zero_add, zero_add]
  unfold Sys.massForm
  rw [Sys.dotv_unit b1]
  simp only [SE3.actInv_zero, add_zero]
  change _ = (∑ j ∈ Ico 1 B.njoints, _ + _) - _
  rw [add_sub_assoc]
  refine (add_eq_left.2 ?_).symm
  rw [sub_eq_zero]
  unfold Sys.unit
  by_cases hh : i = j ∧ k = l
  · rw [if_pos hh, hh.1, hh.2, if_pos rfl, mul_one]; rfl
  · rw [if_neg hh, if_neg, mul_zero]
    intro e'
    exact hh (pB.inj h1 hi j1 hj hk hkl e')

end motion

/-! ## a concrete case: a gripper on the tool frame of a robot -/

section examples
open Ex

theorem Ex.appendableU : Appendable modU modG (jtA 0) (jtA 0) 4 frU :=
  ⟨modU_built, modG_built, by decide +kernel, by decide +kernel, modU_fr, by decide⟩

example : Appendable modU modG (jtA 0) (jtA 0) 4 frU ∧ appendModel modU modG (jtA 0) 4 mA = .ok mergeU () ∧
    mergeU.names = ["universe", "a", "b", "x", "y", "c"] ∧ mergeU.parents = [0, 0, 1, 2, 3, 1] :=
  ⟨appendableU, mergeU_run, mergeU_names, by decide +kernel⟩

example := C37_total_mass appendableU mergeU_run

example := C37_placementsB appendableU mergeU_run (jtA 0) gA gA (modU_local gA) (modG_local gA) (sameQU gA) (sameQG gA) (j := 2)
  (by decide) (by rw [modG_n]; decide)
example := C37_velocitiesB appendableU mergeU_run (jtA 0) gA gA (modU_local gA) (modG_local gA) (sameQU gA) (sameQG gA) (modU_at gA)
  (modG_at gA) mB_valid mA_valid (sameVU gA) (sameVG gA) (j := 2) (by decide) (by rw [modG_n]; decide)

theorem Ex.cleanU : NoFrameInertia modU ∧ NoFrameInertia modG ∧ MassesFine modU ∧ MassesFine modG := by
  have c : ∀ i < 4, 0 ≤ (modU.inertia i).mass ∧ ((modU.inertia i).mass = 0 ∨ (HasEps.eps : ℚ) ≤ (modU.inertia i).mass) := by
    decide +kernel
  have d : ∀ i < 3, 0 ≤ (modG.inertia i).mass ∧ ((modG.inertia i).mass = 0 ∨ (HasEps.eps : ℚ) ≤ (modG.inertia i).mass) := by
    decide +kernel
  refine ⟨?_, ?_, fun i hi => c i (modU_n ▸ hi), fun i hi => d i (modG_n ▸ hi)⟩
  · unfold NoFrameInertia; decide +kernel
  · unfold NoFrameInertia; decide +kernel

example := C37_mass_matrix_partial appendableU mergeU_run (jtA 0) gA gA (modU_local gA) (modG_local gA) (sameQU gA) (sameQG gA)
  (modU_at gA) (modG_at gA) mB_valid mA_valid cleanU.1 cleanU.2.1 cleanU.2.2.1 cleanU.2.2.2 modU_jointsOk modG_jointsOk modU_noMimic
  modG_noMimic (by decide +kernel) (by decide +kernel) (i := 1) (j := 2) (k := 0) (l := 2) (by decide) (by rw [modG_n]; decide)
  (by decide) (by decide) (by rw [modG_n]; decide) (by decide)

/-! ## where the claim fails -/

/-- Parameters: the armature of both models is lost. -/
theorem C37_armature_counterexample :
    Appendable modU modG (jtA 0) (jtA 0) 4 frU ∧ appendModel modU modG (jtA 0) 4 mA = .ok mergeU () ∧
    modU.armature = [1, 2, 3] ∧ modG.armature = [4, 5, 6, 7] ∧ mergeU.armature = [0, 0, 0, 0, 0, 0, 0] :=
  ⟨appendableU, mergeU_run, by decide +kernel, by decide +kernel, by decide +kernel⟩

/-- Inertias: when a frame carries an inertia, the code takes it out of the joint without moving it by the placement of the frame, and
`addFrame` puts it back moved. Here the joint "c" of the first model has its centre of mass elsewhere in the result. -/
theorem C37_inertia_counterexample :
    Appendable modR modG (jtA 0) (jtA 0) 0 universeFrame ∧ ∃ r, appendModel modR modG (jtA 0) 0 mA = .ok r () ∧
      r.name 3 = modR.name 3 ∧ (r.inertia 3).mass = (modR.inertia 3).mass ∧ (r.inertia 3).lever ≠ (modR.inertia 3).lever := by
  refine ⟨⟨modR_built, modG_built, by decide +kernel, by decide +kernel, modR_built.base.f0, by decide⟩,
    Ex.Res.get modR (appendModel modR modG (jtA 0) 0 mA), eq_ok (by decide +kernel), by decide +kernel, by decide +kernel, by decide +kernel⟩

/-- Refused although nothing conflicts: a model in which a body frame has the name of a joint frame (they are told apart by their
type everywhere else) cannot be used, the look-up of the parent of a frame being made by name only. -/
theorem C37_frame_name_counterexample :
    Appendable modN modG (jtA 0) (jtA 0) 3 frN ∧ Ex.Res.kind (appendModel modN modG (jtA 0) 3 mA) = 1 ∧
    modN.frames.map (·.name) = ["universe", "a", "a", "tool"] ∧ modG.frames.map (·.name) = ["universe", "palm", "x", "y", "finger"] :=
  ⟨⟨modN_built, modG_built, by decide +kernel, by decide +kernel, by rfl, by decide⟩, by decide +kernel, by decide +kernel,
    by decide +kernel⟩

/-- Undefined behaviour: the descendants of the joint of the frame are copied before the other joints; when one of them mimics a
joint that is copied later, the indexes of the latter are read past the end of the list of joints. -/
theorem C37_mimic_counterexample :
    Appendable modC modG (jtA 0) (jtA 0) 1 frC ∧ Ex.Res.kind (appendModel modC modG (jtA 0) 1 mA) = 2 :=
  ⟨⟨modC_built, modG_built, by decide +kernel, by decide +kernel, by rfl, by decide⟩, by decide +kernel⟩

end examples
end Pin
