import Verif.Model.ReduceReach
import Verif.Model.ReduceExamples
import Verif.Props.Dynamics

/-!
# C38: locking joints (`buildReducedModel`)

The specification is in `Verif/Spec/Reduce.lean`: `rank lock i` is the index of the kept joint `i` in the result (how many
joints before it are kept), `inp.att lock qref i` is the nearest kept ancestor of `i` and the placement of `i` in it when the
locked joints are at `qref`.
-/

set_option linter.unusedSectionVars false

namespace Pin
open Finset Model
variable {K : Type*} [Field K] [LinearOrder K] [IsStrictOrderedRing K] [HasEps K]
variable {p0 p1 : Joint K} {inp red : Model K (Joint K)} {lock : List ℕ} {qref : List K}

theorem reduce_inv (hb : Built p0 inp) (hr : Reducible inp lock) (h : buildReducedModel inp p1 lock qref = .ok red ()) :
    RInv inp lock qref inp.njoints red :=
  buildReducedModel_inv (hr.hyp hb) (hr.universe hb) h

/-- The joints that are not locked are the joints of the result, in the same order, with the same names, types, sizes and
parameters; a kept joint hangs from its nearest kept ancestor, at the placement it has there. -/
theorem C38_joints (hb : Built p0 inp) (hr : Reducible inp lock) (h : buildReducedModel inp p1 lock qref = .ok red ()) :
    red.names = ((List.range inp.njoints).filter (· ∉ lock)).map inp.name ∧
    red.njoints = ((List.range inp.njoints).filter (· ∉ lock)).length ∧
    (∀ i j, i < inp.njoints → j < inp.njoints → i ∉ lock → j ∉ lock → (rank lock i < rank lock j ↔ i < j)) ∧
    ∀ i, 1 ≤ i → i < inp.njoints → i ∉ lock → SameJoint inp red i (rank lock i) ∧
      red.par (rank lock i) = rank lock (inp.att lock qref (inp.par i)).1 ∧
      red.pl (rank lock i) = (inp.att lock qref (inp.par i)).2 * inp.pl i := by
  have hi := reduce_inv hb hr h
  refine ⟨hi.names, hi.nj, fun i j _ _ hiL hjL => ⟨fun hlt => ?_, fun hlt => rank_lt hlt hiL⟩, hi.kept⟩
  by_contra hc
  have := rank_mono (L := lock) (Nat.le_of_not_lt hc)
  omega

/-- A kept mimic joint mimics, in the result, the joint that stands for the one it mimicked, with its indexes. -/
theorem C38_mimic (hb : Built p0 inp) (hr : Reducible inp lock) (h : buildReducedModel inp p1 lock qref = .ok red ())
    {i : ℕ} {e : JEntry (Joint K)} {x : ℕ × ℕ × ℕ} (h1 : 1 ≤ i) (hi : i < inp.njoints) (hL : i ∉ lock)
    (he : inp.joints[i]? = some e) (hx : e.desc.mimic = some x) :
    x.1 < i ∧ x.1 ∉ lock ∧ ∃ o p : JEntry (Joint K), red.joints[rank lock i]? = some o ∧ red.joints[rank lock x.1]? = some p ∧
      o.desc.mimic = some (rank lock x.1, p.idx_q, p.idx_v) ∧ o.idx_q = p.idx_q ∧ o.idx_v = p.idx_v :=
  (reduce_inv hb hr h).mim i e x h1 hi hL he hx

/-- The result has the total mass of the input. -/
theorem C38_mass (hb : Built p0 inp) (hr : Reducible inp lock) (h : buildReducedModel inp p1 lock qref = .ok red ()) :
    ∑ k ∈ range red.njoints, (red.inertia k).mass = ∑ i ∈ range inp.njoints, (inp.inertia i).mass :=
  (reduce_inv hb hr h).mass (hr.hyp hb)

/-- The inertia of a kept joint is the sum of its own and of those of the locked joints it carries, each moved to the place
where it is locked. The same holds for the universe. -/
theorem C38_inertia (hb : Built p0 inp) (hr : Reducible inp lock) (h : buildReducedModel inp p1 lock qref = .ok red ())
    {k : ℕ} (hk : k < inp.njoints) (hL : k ∉ lock) :
    (red.inertia (rank lock k)).mass = ∑ i ∈ range inp.njoints with (inp.att lock qref i).1 = k, (inp.inertia i).mass ∧
    (red.inertia (rank lock k)).matrix = ∑ i ∈ range inp.njoints with (inp.att lock qref i).1 = k,
      ((inp.inertia i).act (inp.att lock qref i).2).matrix :=
  ((reduce_inv hb hr h).iner k hk hL).2

/-- The frames of the result: the universe, one for each locked joint, and the frames of the input; nothing else, and
nothing is lost but the frames named as a locked joint, which the frame of that joint replaces. -/
theorem C38_frames (hb : Built p0 inp) (hr : Reducible inp lock) (hf : FramesOk inp)
    (h : buildReducedModel inp p1 lock qref = .ok red ()) :
    (∀ g ∈ red.frames, g = universeFrame ∨ (∃ i, 1 ≤ i ∧ i < inp.njoints ∧ i ∈ lock ∧ FrameOfJoint inp lock qref i g) ∨
      ∃ f ∈ inp.frames, FrameOf inp lock qref f g) ∧
    (∀ i, 1 ≤ i → i < inp.njoints → i ∈ lock → ∃ g ∈ red.frames, FrameOfJoint inp lock qref i g) ∧
    (∀ f ∈ inp.frames, (∃ i ∈ lock, f.name = inp.name i) ∨ ∃ g ∈ red.frames, FrameOf inp lock qref f g) := by
  have hi := reduce_inv hb hr h
  have H := hr.hyp hb
  have hu := hr.universe hb
  obtain ⟨hF, hC⟩ := buildReducedModel_frames H ⟨hb.base.fpar, hf.type, hf.own⟩ hu hb.base.f0 h
  refine ⟨hF.shape, fun i h1 hin hL => ?_, fun f hfm => ?_⟩
  · obtain ⟨g, hg, e1, e2, -⟩ := hi.fix i h1 hin hL
    refine ⟨g, hg, ?_⟩
    rcases hF.shape g hg with rfl | ⟨i', a, b, c, d⟩ | ⟨f, hfm, d⟩
    · exact absurd e1.symm (hu i h1 hin)
    · rwa [H.name_inj hin b (e1.symm.trans d.name)]
    · exact absurd (d.name.symm.trans e1) (hr.fixed f hfm (by rw [← d.type, e2]; decide) i h1 hin)
  · obtain ⟨t, ht, rfl⟩ := List.getElem_of_mem hfm
    rcases hC t (le_of_lt ht) _ (List.getElem?_eq_getElem ht) with a | a
    · exact Or.inl a
    unfold existFrame at a
    rw [List.any_eq_true] at a
    obtain ⟨g, hg, hgg⟩ := a
    simp only [filterFrame, Bool.and_eq_true, bne_iff_ne, beq_iff_eq] at hgg
    have uniq : ∀ f ∈ inp.frames, f.name = inp.frames[t].name → inp.frames[t].type &&& f.type ≠ 0 → f = inp.frames[t] := by
      intro f hf hn hty
      obtain ⟨u, hu, rfl⟩ := List.getElem_of_mem hf
      have hd := List.pairwise_iff_getElem.1 hb.framesDistinct
      rcases lt_trichotomy u t with hlt | rfl | hlt
      · exact absurd ⟨hn, by rw [Nat.and_comm]; exact hty⟩ (hd u t hu ht hlt)
      · rfl
      · exact absurd ⟨hn.symm, hty⟩ (hd t u ht hu hlt)
    rcases hF.shape g hg with rfl | ⟨i', a, b, c, d⟩ | ⟨f, hfm', d⟩
    · have := uniq universeFrame (List.mem_of_getElem? hb.base.f0) hgg.2.symm hgg.1
      refine Or.inr ⟨_, hg, ?_⟩
      rw [← this]
      have ha : inp.att lock qref 0 = (0, 1) := attach_kept hr.lock
      refine ⟨rfl, rfl, rfl, ?_, ?_⟩
      · change 0 = rank lock (inp.att lock qref 0).1
        rw [ha]; rfl
      · change 1 = (inp.att lock qref 0).2 * 1
        rw [ha, SE3.mul_one]
    · exact Or.inl ⟨i', c, hgg.2.trans d.name⟩
    · have := uniq f hfm' (d.name.symm.trans hgg.2.symm) (by rw [← d.type]; exact hgg.1)
      exact Or.inr ⟨g, hg, this ▸ d⟩

section motion
variable {q q' v v' a a' : ℕ → K} (hb : Built p0 inp) (hr : Reducible inp lock)
  (h : buildReducedModel inp p1 lock qref = .ok red ()) (j0 : Joint K) (g : Motion K)
  (hl : ∀ i, 1 ≤ i → i < inp.njoints → ((inp.toSys j0 g).jt i).Local) (hq : (inp.toSys j0 g).At q)
  (hc : (inp.toSys j0 g).SameConfig (red.toSys j0 g) lock (fun k => qref.getD k 0) q q')
include hb hr h hl hq hc

theorem reduce_welded : Sys.Welded (inp.toSys j0 g) (red.toSys j0 g) lock (inp.jointM qref) := by
  refine (reduce_inv hb hr h).welded (hr.hyp hb) j0 g fun i h1 hi hL => ?_
  rw [RInv.jointM_eq (hr.hyp hb) j0 g i h1 hi hL, (hl i h1 hi).M (seg (fun k => qref.getD k 0) ((inp.toSys j0 g).iq i)) (seg q ((inp.toSys j0 g).iq i))
    (fun k hk => (hc.lock i h1 hi hL k hk).symm)]
  exact (hq.jt i h1 hi).valid

/-- Every body of the input, locked or not, is where the result puts the joint that carries it. -/
theorem C38_placements {i : ℕ} (hi : i < inp.njoints) :
    (inp.toSys j0 g).oM q i = (red.toSys j0 g).oM q' (rank lock (inp.att lock qref i).1) * (inp.att lock qref i).2 :=
  Sys.Welded.oM_eq (reduce_welded hb hr h j0 g hl hq hc) hl (RInv.jointM_eq (hr.hyp hb) j0 g) hc i hi

/-- Inverse dynamics: when the locked joints stay at `qref`, `rnea` on the result gives the torques `rnea` gives for the kept
joints of the input, armature excepted: it is not carried over (`C38_armature_counterexample`). -/
theorem C38_inverse_dynamics (hj : inp.JointsOk) (hn : inp.NoMimic)
    (hv : (inp.toSys j0 g).SameVel (red.toSys j0 g) lock v v') (ha : (inp.toSys j0 g).SameVel (red.toSys j0 g) lock a a')
    (d d' : Data K) {i k : ℕ} (h1 : 1 ≤ i) (hi : i < inp.njoints) (hL : i ∉ lock) (hk : k < (inp.toSys j0 g).jnv i) :
    (rnea (red.toSys j0 g) d' q' v' a').tau ((red.toSys j0 g).iv (rank lock i) + k)
      = (rnea (inp.toSys j0 g) d q v a).tau ((inp.toSys j0 g).iv i + k)
        - inp.armature.getD ((inp.toSys j0 g).iv i + k) 0 * a ((inp.toSys j0 g).iv i + k) := by
  have hw := reduce_welded hb hr h j0 g hl hq hc
  have hR := reduce_inv hb hr h
  have H := hr.hyp hb
  have hsp := toSys_packed H.inv hj hn j0 g
  have hrp := toSys_packed hR.inv (hR.jointsOk H hj hn) (hR.noMimic H hn) j0 g
  have hM := RInv.jointM_eq (qref := qref) H j0 g
  have hrq := Sys.Welded.at_of hw hl hM hc hq
  have hu := hw.sameVel_unit hsp hrp h1 hi hL hk
  have e := Sys.Welded.rnea_eq hw hl hM hc hq hsp.wf hrp.wf hrq hv ha hu d d'
  have hrk : (red.toSys j0 g).jnv (rank lock i) = (inp.toSys j0 g).jnv i := by
    unfold Sys.jnv; rw [hw.rjt i h1 hi hL]
  have b1 : (inp.toSys j0 g).iv i + k < (inp.toSys j0 g).nv := by have := hsp.le_nv h1 hi; omega
  have b2 : (red.toSys j0 g).iv (rank lock i) + k < (red.toSys j0 g).nv := by
    have := hrp.le_nv (rank_pos H.lock h1) (by rw [hw.n]; exact rank_lt hi hL); omega
  rw [Sys.dotv_unit b1, Sys.dotv_unit b1, Sys.dotv_unit b2, Sys.dotv_unit b2] at e
  have z : (red.toSys j0 g).arm ((red.toSys j0 g).iv (rank lock i) + k) = 0 := by
    change red.armature.getD _ 0 = 0
    rw [List.getD]
    cases hx : red.armature[(red.toSys j0 g).iv (rank lock i) + k]? with
    | none => rfl
    | some x => exact hR.arm x (List.mem_of_getElem? hx)
  rw [z, zero_mul, sub_zero] at e
  exact e.symm

/-- Velocities of the bodies, locked or not, in their own frames. -/
theorem C38_velocities (hv : (inp.toSys j0 g).SameVel (red.toSys j0 g) lock v v') {i : ℕ} (hi : i < inp.njoints) :
    (inp.toSys j0 g).V q v i = (inp.att lock qref i).2.actInv ((red.toSys j0 g).V q' v' (rank lock (inp.att lock qref i).1)) :=
  Sys.Welded.V_eq (reduce_welded hb hr h j0 g hl hq hc) hl (RInv.jointM_eq (hr.hyp hb) j0 g) hc hq hv i hi

/-- The mass matrix `crba` computes on the result is the block of the kept joints in the mass matrix of the input, without the
armature. -/
theorem C38_mass_matrix (hj : inp.JointsOk) (hn : inp.NoMimic)
    (hc1 : crbaCheck (inp.toSys j0 g).par (inp.toSys j0 g).n = true)
    (hc2 : crbaCheck (red.toSys j0 g).par (red.toSys j0 g).n = true)
    {i k j l : ℕ} (h1 : 1 ≤ i) (hi : i < inp.njoints) (hL : i ∉ lock) (hk : k < (inp.toSys j0 g).jnv i)
    (j1 : 1 ≤ j) (hjn : j < inp.njoints) (hjL : j ∉ lock) (hkl : l < (inp.toSys j0 g).jnv j) :
    symUpper (crbaWorld (red.toSys j0 g) Data.zero q').M ((red.toSys j0 g).iv (rank lock i) + k)
        ((red.toSys j0 g).iv (rank lock j) + l)
      = symUpper (crbaWorld (inp.toSys j0 g) Data.zero q).M ((inp.toSys j0 g).iv i + k) ((inp.toSys j0 g).iv j + l)
        - if i = j ∧ k = l then inp.armature.getD ((inp.toSys j0 g).iv i + k) 0 else 0 := by
  have hw := reduce_welded hb hr h j0 g hl hq hc
  have hR := reduce_inv hb hr h
  have H := hr.hyp hb
  have hsp := toSys_packed H.inv hj hn j0 g
  have hrp := toSys_packed hR.inv (hR.jointsOk H hj hn) (hR.noMimic H hn) j0 g
  have hM := RInv.jointM_eq (qref := qref) H j0 g
  have hrq := Sys.Welded.at_of hw hl hM hc hq
  have hu := hw.sameVel_unit hsp hrp h1 hi hL hk
  have hu' := hw.sameVel_unit hsp hrp j1 hjn hjL hkl
  have e := Sys.Welded.massForm_eq hw hl hM hc hq hu' hu
  have jn : ∀ j, 1 ≤ j → j < inp.njoints → j ∉ lock → (red.toSys j0 g).jnv (rank lock j) = (inp.toSys j0 g).jnv j := by
    intro j j1 hj hjL
    unfold Sys.jnv; rw [hw.rjt j j1 hj hjL]
  have bnd : ∀ j l, 1 ≤ j → j < inp.njoints → j ∉ lock → l < (inp.toSys j0 g).jnv j →
      (inp.toSys j0 g).iv j + l < (inp.toSys j0 g).nv ∧ (red.toSys j0 g).iv (rank lock j) + l < (red.toSys j0 g).nv := by
    intro j l j1 hj hjL hl
    have a := hsp.le_nv j1 hj
    have b := hrp.le_nv (rank_pos H.lock j1) (by rw [hw.n]; exact rank_lt hj hjL)
    rw [jn j j1 hj hjL] at b
    omega
  obtain ⟨b1, b2⟩ := bnd i k h1 hi hL hk
  obtain ⟨c1, c2⟩ := bnd j l j1 hjn hjL hkl
  have m1 : (inp.toSys j0 g).MassesOk := fun i _ hi => (H.mass i hi).2
  have m2 : (red.toSys j0 g).MassesOk := by
    intro k' k1 hk'
    obtain ⟨i', i1, i2, i3, rfl⟩ := hw.exists_kept k1 hk'
    exact (hR.iner i' i2 i3).1.2
  rw [(C13_entries hsp hc1 m1 Data.zero hq (fun _ _ _ _ _ _ _ _ _ _ _ _ => rfl) b1 c1).1,
    (C13_entries hrp hc2 m2 Data.zero hrq (fun _ _ _ _ _ _ _ _ _ _ _ _ => rfl) b2 c2).1]
  rw [Sys.dotv_unit b1, Sys.dotv_unit b2] at e
  have z : (red.toSys j0 g).arm ((red.toSys j0 g).iv (rank lock i) + k) = 0 := by
    change red.armature.getD _ 0 = 0
    rw [List.getD]
    cases hx : red.armature[(red.toSys j0 g).iv (rank lock i) + k]? with
    | none => rfl
    | some x => exact hR.arm x (List.mem_of_getElem? hx)
  rw [z, zero_mul, sub_zero] at e
  rw [← e]
  congr 1
  unfold Sys.unit
  by_cases hh : i = j ∧ k = l
  · rw [if_pos hh, hh.1, hh.2, if_pos rfl, mul_one]; rfl
  · rw [if_neg hh, if_neg, mul_zero]
    intro e'
    exact hh (hsp.inj h1 hi j1 hjn hk hkl e')

end motion

/-- Duplicated joints, a list longer than the number of joints and a reference of the wrong size are refused. -/
theorem C38_refused (h : qref.length ≠ inp.nq ∨ inp.njoints < lock.length ∨ ¬ lock.Nodup) :
    ∃ m, buildReducedModel inp p1 lock qref = .throw m := by
  unfold buildReducedModel
  dsimp only
  by_cases h1 : qref.length = inp.nq
  · by_cases h2 : lock.length ≤ inp.njoints
    · rcases h with h | h | h
      · exact absurd h1 h
      · omega
      · rw [if_neg (not_not.2 h1), if_neg (not_not.2 h2), if_pos]
        · exact ⟨_, rfl⟩
        · intro hc
          have hp : (lock.insertionSort (· ≤ ·)).Pairwise (· < ·) := List.isChain_iff_pairwise.1 hc
          exact h ((List.perm_insertionSort (· ≤ ·) lock).nodup_iff.1 (hp.imp fun h => ne_of_lt h))
    · rw [if_neg (not_not.2 h1), if_pos h2]; exact ⟨_, rfl⟩
  · rw [if_pos h1]; exact ⟨_, rfl⟩

/-! ## a concrete case -/

section examples
open Ex

/-- a robot with five joints, parameters set after construction, frames; a revolute and a spherical joint are locked -/
example : Built (jtA 0) modR ∧ Reducible modR lockR ∧ FramesOk modR ∧
    buildReducedModel modR (jtA 0) lockR qrefR = .ok redR () ∧ modR.JointsOk ∧ modR.NoMimic ∧
    (modR.toSys (jtA 0) gA).At qR ∧
    (modR.toSys (jtA 0) gA).SameConfig (redR.toSys (jtA 0) gA) lockR (fun k => qrefR.getD k 0) qR qR' ∧
    (modR.toSys (jtA 0) gA).SameVel (redR.toSys (jtA 0) gA) lockR vR vR' :=
  ⟨modR_built, modR_reducible, modR_framesOk, redR_run, modR_jointsOk, modR_noMimic, modR_at, modR_same, modR_sameV⟩

example : redR.names = ["universe", "b", "d"] ∧ redR.rotorInertia = [5, 1] ∧ redR.nq = 2 := by
  refine ⟨?_, ?_, ?_⟩ <;> decide +kernel

set_option maxRecDepth 100000 in
example : crbaCheck (modR.toSys (jtA 0) gA).par (modR.toSys (jtA 0) gA).n = true ∧
    crbaCheck (redR.toSys (jtA 0) gA).par (redR.toSys (jtA 0) gA).n = true := by
  constructor <;> decide +kernel

/-- the theorem on that robot, for the joint "b" -/
example := C38_inverse_dynamics modR_built modR_reducible redR_run (jtA 0) gA modR_local modR_at modR_same modR_jointsOk
    modR_noMimic modR_sameV modR_sameV Data.zero Data.zero (i := 2) (k := 0) (by decide)
    (by rw [modR_n]; decide) (by decide) (by decide)

/-! ## where the claim fails -/

/-- Parameters of the kept joints: the armature is lost. Kept joints "b" and "d" have armature 2 and 6 in the input, the
result has none. -/
theorem C38_armature_counterexample :
    Built (jtA 0) modR ∧ Reducible modR lockR ∧ buildReducedModel modR (jtA 0) lockR qrefR = .ok redR () ∧
    modR.armature = [1, 2, 3, 4, 5, 6] ∧ redR.armature = [0, 0] :=
  ⟨modR_built, modR_reducible, redR_run, rfl, by decide +kernel⟩

/-- Total mass: a fixed frame with the name of a joint that is locked later takes the place of the frame of that joint, and the
mass of its body is lost (here 1/2). -/
theorem C38_mass_counterexample :
    ∃ red, buildReducedModel modF (jtA 0) [1, 2] [1/2, 1/3] = .ok red () ∧
      (red.inertias.map (·.mass)).sum = 2 ∧ (modF.inertias.map (·.mass)).sum = 5/2 := by
  have h : ∀ r : Res (Model ℚ (Joint ℚ)) Unit, (match r with
      | .ok m _ => decide ((m.inertias.map (·.mass)).sum = 2)
      | _ => false) = true → ∃ red, r = .ok red () ∧ (red.inertias.map (·.mass)).sum = 2 := by
    intro r hr
    split at hr
    · rename_i m _; exact ⟨m, rfl, by simpa using hr⟩
    · cases hr
  obtain ⟨red, h1, h2⟩ := h (buildReducedModel modF (jtA 0) [1, 2] [1/2, 1/3]) (by decide +kernel)
  exact ⟨red, h1, h2, by decide +kernel⟩

/-- Undefined behaviour: the list of joints to lock starts with the universe (no joint is locked and the frames of the joint to
lock are looked up in vain); the model has no frame for the joint to lock; a joint is locked and another one mimics it. -/
theorem C38_ub_counterexample :
    buildReducedModel modR (jtA 0) [0, 2] qrefR = .ub ∧ buildReducedModel modA (jtA 0) [2] qrefR = .ub ∧
    buildReducedModel modM (jtA 0) [1] [1/2] = .ub := by
  have h : ∀ r : Res (Model ℚ (Joint ℚ)) Unit, decide (Ex.Res.kind r = 2) = true → r = .ub := by
    intro r hr
    cases r <;> simp [Ex.Res.kind] at hr ⊢
  refine ⟨h _ ?_, h _ ?_, h _ ?_⟩ <;> decide +kernel

/-- An index that is not a joint is ignored, and so is the universe alone. -/
theorem C38_ignored_counterexample :
    (Ex.Res.get modA (buildReducedModel modR (jtA 0) [7] qrefR)).names = modR.names ∧
    (Ex.Res.get modA (buildReducedModel modR (jtA 0) [0] qrefR)).names = modR.names ∧
    Ex.Res.kind (buildReducedModel modR (jtA 0) [7] qrefR) = 0 ∧ Ex.Res.kind (buildReducedModel modR (jtA 0) [0] qrefR) = 0 := by
  refine ⟨?_, ?_, ?_, ?_⟩ <;> decide +kernel

end examples
end Pin
