import Verif.Model.MimicDyn
import Verif.Model.ReduceExamples

/-!
# C77: turning a joint into a mimic joint

`transformJointIntoMimic` and `buildMimicModel` (`Verif/Model/Mimic.lean`). What the result must be: `Model.MimicOf` and
`insertAt` in `Verif/Spec/Mimic.lean`.
-/

set_option linter.unusedSectionVars false

namespace Pin
open Finset Model
variable {K : Type*} [Field K] [LinearOrder K] [HasEps K]

/-- The call succeeds, whatever the resized vectors hold, and the result is the model in which joint `j` follows joint `i`: the
tree, the inertias, the frames and the other joints with all their parameters are kept, the other mimic joints still follow the
same joints. The result has the properties of a constructed model. -/
theorem C77_result {P : Type*} {p0 : P} {m : Model K P} (hb : Built p0 m) {i j : ℕ} {ei ej : JEntry P} {J : P} {mk : P → Option P}
    (i1 : 1 ≤ i) (hij : i < j) (hj : j < m.njoints) (hi : m.joints[i]? = some ei) (hje : m.joints[j]? = some ej)
    (mi : ei.desc.mimic = none) (mj : ej.desc.mimic = none) (hf : m.FollowsOk j) (hJ : mk ej.desc.payload = some J) :
    ∃ m', (∀ junk, transformJointIntoMimic junk mk m i j = .ok () m') ∧ MimicOf m m' i j ej J ∧ Inv m' := by
  have h : MSetup m i j ei ej := ⟨hb.inv, i1, hij, hj, hi, hje, mi, mj, hf⟩
  exact ⟨_, fun junk => MSetup.transform_eq h junk mk hJ, MSetup.res_mimicOf h, MSetup.res_inv h⟩

/-- `buildMimicModel` on a list of pairs none of which is both followed and turned: every joint of the list follows its joint with
the given scaling and offset, the other joints keep everything, whatever the order of the list, the contents of the resized vectors
and of the output model before the call. -/
theorem C77_build {P : Type*} {p0 : P} {m : Model K P} (hb : Built p0 m) {l : List (ℕ × ℕ × K × K)} (hl : l ≠ [])
    (hp : m.MimicPairs l) {mk : K → K → P → Option P}
    (hmk : ∀ x ∈ l, ∀ e, m.joints[x.2.1]? = some e → (mk x.2.2.1 x.2.2.2 e.desc.payload).isSome) :
    ∃ m', (∀ junk out, buildMimicModel junk mk m l out = .ok () m') ∧ Inv m' ∧ m.SameTree m' ∧
      (∀ x ∈ l, ∃ e J, m.joints[x.2.1]? = some e ∧ mk x.2.2.1 x.2.2.2 e.desc.payload = some J ∧ m'.Follows x.1 x.2.1 e J) ∧
      (∀ k, k ∉ l.map (·.2.1) → m.KeepsJoint m' k) ∧
      (∀ k, k ∈ m'.mimicking ↔ k ∈ l.map (·.2.1) ∨ k ∈ m.mimicking) ∧
      (∀ k, k ∈ m'.mimicked ↔ k ∈ l.map (·.1) ∨ k ∈ m.mimicked) := by
  obtain ⟨x, l', rfl⟩ := List.exists_cons_of_ne_nil hl
  obtain ⟨m', h1, h2⟩ := each_ok mk _ m hb.inv hp ⟨_, hp.follows _ List.mem_cons_self⟩ hmk
  refine ⟨m', fun junk out => ?_, h2⟩
  have := h1 junk
  unfold buildMimicModel
  rw [mimicEach] at this ⊢
  exact this

/-- The calls that are refused: a joint that does not precede the joint to turn, the universe as the joint to follow, a joint type
that cannot be a mimic joint. -/
theorem C77_refused {P : Type*} {p0 : P} {m : Model K P} (hb : Built p0 m) (junk : K) (mk : P → Option P) {i j : ℕ} :
    (j ≤ i → transformJointIntoMimic junk mk m i j = .throw ()) ∧
    (m.njoints < j → transformJointIntoMimic junk mk m i j = .throw ()) ∧
    (j < m.njoints → transformJointIntoMimic junk mk m 0 j = .throw ()) ∧
    (∀ e, m.joints[j]? = some e → mk e.desc.payload = none → transformJointIntoMimic junk mk m i j = .throw ()) := by
  have jl := hb.inv.lens.joints
  refine ⟨fun h => ?_, fun h => ?_, fun h => ?_, fun e he hm => ?_⟩ <;> unfold transformJointIntoMimic
  · rw [if_pos (show ¬ i < j by omega)]; simp only [ite_self]
  · rw [if_pos (show ¬ j ≤ m.njoints by omega)]; simp only [ite_self]
  · obtain ⟨e0, h0⟩ : ∃ e, m.joints[0]? = some e := ⟨_, List.getElem?_eq_getElem (by omega)⟩
    obtain ⟨ej, hj⟩ : ∃ e, m.joints[j]? = some e := ⟨_, List.getElem?_eq_getElem (by omega)⟩
    rw [h0, hj]
    simp only [if_true]
    cases mk ej.desc.payload <;> simp only [ite_self]
  · have hj : j < m.njoints := by rw [← jl]; exact (List.getElem?_eq_some_iff.1 he).1
    by_cases hij : i < j
    · obtain ⟨ei, hi⟩ : ∃ e, m.joints[i]? = some e := ⟨_, List.getElem?_eq_getElem (by omega)⟩
      rw [hi, he]
      simp only [hm, ite_self]
    · rw [if_pos hij]; simp only [ite_self]

/-- **Finding.** `transformJointIntoMimic` accepts the number of joints as the index of the joint to turn (`<=` instead of `<`,
`algorithm/model.hxx:869-874`): the vector of joints is read past its end. -/
theorem C77_bound_counterexample {P : Type*} {p0 : P} {m : Model K P} (hb : Built p0 m) (junk : K) (mk : P → Option P) {i : ℕ}
    (hi : i < m.njoints) : transformJointIntoMimic junk mk m i m.njoints = .ub := by
  have jl := hb.inv.lens.joints
  unfold transformJointIntoMimic
  rw [if_neg (by omega), if_neg (by omega), if_neg (by omega), List.getElem?_eq_none (l := m.joints) (i := m.njoints) (by omega)]
  split
  · rename_i h; cases h
  · rfl

section motion
variable {p0 : Joint K} {m m' : Model K (Joint K)} {i j : ℕ} {ei ej : JEntry (Joint K)} {S0 : ℕ → Motion K}
  {aff : K → K → (ℕ → K) → ℕ → K} {sc off junk : K} {mk : Joint K → Option (Joint K)}

/-- the facts about the call used in this section -/
structure MimicCall (p0 : Joint K) (m m' : Model K (Joint K)) (i j : ℕ) (ei ej : JEntry (Joint K)) (S0 : ℕ → Motion K)
    (aff : K → K → (ℕ → K) → ℕ → K) (sc off junk : K) (mk : Joint K → Option (Joint K)) : Prop where
  built : Built p0 m
  i1 : 1 ≤ i
  ij : i < j
  jn : j < m.njoints
  hi : m.joints[i]? = some ei
  hj : m.joints[j]? = some ej
  mi : ei.desc.mimic = none
  mj : ej.desc.mimic = none
  fol : m.FollowsOk j
  sizes : m.SizesOk
  nv : ei.desc.nv = ej.desc.nv
  hmk : mk ej.desc.payload = some (jMimic ej.desc.payload S0 aff sc off)
  hS : ∀ x : ℕ → K, ∀ k < ej.desc.nv, ej.desc.payload.S x k = S0 k
  call : transformJointIntoMimic junk mk m i j = .ok () m'

theorem MimicCall.setup (h : MimicCall p0 m m' i j ei ej S0 aff sc off junk mk) : MSetup m i j ei ej :=
  ⟨h.built.inv, h.i1, h.ij, h.jn, h.hi, h.hj, h.mi, h.mj, h.fol⟩

theorem MimicCall.eq (h : MimicCall p0 m m' i j ei ej S0 aff sc off junk mk) :
    m' = MSetup.result m i j ei ej (jMimic ej.desc.payload S0 aff sc off) := by
  have e := MSetup.transform_eq h.setup junk mk h.hmk
  rw [h.call] at e
  cases e; rfl

/-- Every body of the result moves as in the input when the coordinates of joint `j` are computed from those of joint `i`:
placements, velocities and accelerations of `forwardKinematics` are the same. -/
theorem C77_kinematics (h : MimicCall p0 m m' i j ei ej S0 aff sc off junk mk) (j0 : Joint K) (g : Motion K)
    (hl : ∀ k, 1 ≤ k → k < m.njoints → ((m.toSys j0 g).jt k).Local) {q' : ℕ → K} (v' a' : ℕ → K)
    {q v a : ℕ → K} (hq : q = insertAt ej.idx_q ej.desc.nq (aff sc off (seg q' ei.idx_q)) q')
    (hv : v = insertAt ej.idx_v ej.desc.nv (fun k => sc * v' (ei.idx_v + k)) v')
    (ha : a = insertAt ej.idx_v ej.desc.nv (fun k => sc * a' (ei.idx_v + k)) a')
    (hat : (m.toSys j0 g).At q) (d d' : Data K) {k : ℕ} (h1 : 1 ≤ k) (hk : k < m.njoints) :
    (forwardKinematicsA (m'.toSys j0 g) d' q' v' a').oMi k = (forwardKinematicsA (m.toSys j0 g) d q v a).oMi k ∧
    (forwardKinematicsA (m'.toSys j0 g) d' q' v' a').v k = (forwardKinematicsA (m.toSys j0 g) d q v a).v k ∧
    (forwardKinematicsA (m'.toSys j0 g) d' q' v' a').a k = (forwardKinematicsA (m.toSys j0 g) d q v a).a k := by
  have hs := h.setup
  have e := h.eq
  subst e
  subst hq hv ha
  have hm := MSetup.sameMotion (aff := aff) (sc := sc) (off := off) hs h.sizes j0 g hl h.hS q'
  have w := MSetup.wf_in hs h.sizes j0 g
  have w' := MSetup.wf_out (S0 := S0) (aff := aff) (sc := sc) (off := off) hs h.sizes h.nv j0 g
  have at' := MSetup.at_of hs h.sizes j0 g hl h.hS hat
  obtain ⟨p1, p2, p3⟩ := fk2_ok w.par d hat (insertAt ej.idx_v ej.desc.nv (fun k => sc * v' (ei.idx_v + k)) v')
    (insertAt ej.idx_v ej.desc.nv (fun k => sc * a' (ei.idx_v + k)) a')
  obtain ⟨r1, r2, r3⟩ := fk2_ok w'.par d' at' v' a'
  have hk' : k < (m.toSys j0 g).n := hk
  refine ⟨?_, ?_, ?_⟩
  · rw [(r1 k h1 hk).2.1, (p1 k h1 hk).2.1]; exact hm.oM_eq w.par k hk'
  · rw [(r2 k h1 hk).1, (p2 k h1 hk).1]; exact hm.V_eq w.par v' k hk'
  · rw [r3 k hk, p3 k hk]; exact hm.A_eq w.par 0 v' a' k hk'

/-- Inverse dynamics: the torque of the result is that of the input, joint `i` bearing in addition `scaling` times the torque of
joint `j`, without the armature of `j`, which is lost (`C77_armature_counterexample`). -/
theorem C77_inverse_dynamics (h : MimicCall p0 m m' i j ei ej S0 aff sc off junk mk) (j0 : Joint K) (g : Motion K)
    (hl : ∀ k, 1 ≤ k → k < m.njoints → ((m.toSys j0 g).jt k).Local) {q' : ℕ → K} (v' a' : ℕ → K)
    {q v a : ℕ → K} (hq : q = insertAt ej.idx_q ej.desc.nq (aff sc off (seg q' ei.idx_q)) q')
    (hv : v = insertAt ej.idx_v ej.desc.nv (fun k => sc * v' (ei.idx_v + k)) v')
    (ha : a = insertAt ej.idx_v ej.desc.nv (fun k => sc * a' (ei.idx_v + k)) a')
    (hat : (m.toSys j0 g).At q) (d d' : Data K) {r : ℕ} (hr : r < m'.nv) :
    (rnea (m'.toSys j0 g) d' q' v' a').tau r = (rnea (m.toSys j0 g) d q v a).tau (skip ej.idx_v ej.desc.nv r) +
      if ei.idx_v ≤ r ∧ r < ei.idx_v + ej.desc.nv then
        sc * ((rnea (m.toSys j0 g) d q v a).tau (ej.idx_v + (r - ei.idx_v))
          - m.armature.getD (ej.idx_v + (r - ei.idx_v)) 0 * a (ej.idx_v + (r - ei.idx_v)))
      else 0 := by
  have hs := h.setup
  have e := h.eq
  subst e
  subst hq hv ha
  have hm := MSetup.sameMotion (aff := aff) (sc := sc) (off := off) hs h.sizes j0 g hl h.hS q'
  have w := MSetup.wf_in hs h.sizes j0 g
  have w' := MSetup.wf_out (S0 := S0) (aff := aff) (sc := sc) (off := off) hs h.sizes h.nv j0 g
  have at' := MSetup.at_of hs h.sizes j0 g hl h.hS hat
  have key := hm.rnea_eq w w' hat at' d d' v' a' (Sys.unit r)
  have lej := MSetup.lej hs
  unfold Sys.dotv at key
  rw [sum_unit_le (((MSetup.result m i j ei ej (jMimic ej.desc.payload S0 aff sc off)).toSys j0 g).nv) r hr] at key
  rw [show (m.toSys j0 g).nv = m.nv from rfl, sum_insert_unit ei.idx_v lej.2 hr sc (fun k =>
    (rnea (m.toSys j0 g) d (insertAt ej.idx_q ej.desc.nq (aff sc off (seg q' ei.idx_q)) q')
      (insertAt ej.idx_v ej.desc.nv (fun k => sc * v' (ei.idx_v + k)) v')
      (insertAt ej.idx_v ej.desc.nv (fun k => sc * a' (ei.idx_v + k)) a')).tau k
      - (m.toSys j0 g).arm k * insertAt ej.idx_v ej.desc.nv (fun k => sc * a' (ei.idx_v + k)) a' k), MSetup.arm_out hs,
    insertAt_skip] at key
  have e3 : (m.toSys j0 g).arm (ej.idx_v + (r - ei.idx_v)) = m.armature.getD (ej.idx_v + (r - ei.idx_v)) 0 := rfl
  rw [e3] at key
  linear_combination key

end motion

namespace Ex

/-- mimic joints with an affine transform of the configuration -/
def mkM (r o : ℚ) (J : Joint ℚ) : Option (Joint ℚ) := some (jMimic J (J.S fun _ => 0) linearAffine r o)

theorem modR_plain {k : ℕ} {e : JEntry (Joint ℚ)} (he : modR.joints[k]? = some e) : e.desc.mimic = none := by
  rw [modR_joints] at he
  rcases k with _ | _ | _ | _ | _ | k <;> simp at he <;> subst he <;> rfl

theorem modR_follows (j : ℕ) : modR.FollowsOk j := by
  intro k e mid mq mv he hm
  rw [modR_plain he] at hm; cases hm

theorem modR_sizes : modR.SizesOk := by
  intro k e h1 he
  refine ⟨fun _ => ?_, fun mid mq mv hm => by rw [modR_plain he] at hm; cases hm⟩
  rw [modR_joints] at he
  rcases k with _ | _ | _ | _ | _ | k <;> simp at he h1 <;> subst he <;> exact ⟨rfl, rfl⟩

def e1M : JEntry (Joint ℚ) := ⟨⟨jtA 1, 1, 1, 1, none⟩, 1, 0, 0, 0⟩
def e2M : JEntry (Joint ℚ) := ⟨⟨jtA 2, 1, 1, 1, none⟩, 2, 1, 1, 1⟩
theorem modR_1 : modR.joints[1]? = some e1M := by rw [modR_joints]; rfl
theorem modR_2 : modR.joints[2]? = some e2M := by rw [modR_joints]; rfl

/-- The hypotheses of `C77_result` hold: the prismatic joint 2 becomes a mimic joint of the revolute joint 1. -/
example (r o : ℚ) : ∃ m', (∀ junk, transformJointIntoMimic junk (mkM r o) modR 1 2 = .ok () m') ∧
    MimicOf modR m' 1 2 e2M (jMimic (jtA 2) ((jtA 2).S fun _ => 0) linearAffine r o) ∧ Inv m' :=
  C77_result modR_built (le_refl 1) (by decide) (by rw [modR_n]; decide) modR_1 modR_2 rfl rfl (modR_follows 2) rfl

theorem modR_pairs (r o r' o' : ℚ) : modR.MimicPairs [(1, 4, r, o), (1, 2, r', o')] := by
  have hn := modR_n
  refine ⟨?_, ?_, by simp, by simp, fun x _ => modR_follows _⟩
  · intro x hx
    rcases List.mem_pair.1 hx with rfl | rfl <;> rw [hn] <;> simp
  · rintro x - e (he | he) <;> exact modR_plain he

/-- The hypotheses of `C77_build` hold: the joints 2 and 4 follow joint 1. -/
example (r o r' o' : ℚ) : ∃ m', (∀ junk out, buildMimicModel junk mkM modR [(1, 4, r, o), (1, 2, r', o')] out = .ok () m') ∧
    Inv m' ∧ modR.KeepsJoint m' 3 := by
  obtain ⟨m', h1, h2, -, -, h3, -⟩ := C77_build modR_built (by simp) (modR_pairs r o r' o') (mk := mkM) (fun _ _ _ _ => rfl)
  exact ⟨m', h1, h2, h3 3 (by simp)⟩

/-- the result -/
def mimR (r o : ℚ) : Model ℚ (Joint ℚ) :=
  MSetup.result modR 1 2 e1M e2M (jMimic (jtA 2) ((jtA 2).S fun _ => 0) linearAffine r o)

theorem mimR_call (r o junk : ℚ) : MimicCall (jtA 0) modR (mimR r o) 1 2 e1M e2M ((jtA 2).S fun _ => 0) linearAffine r o junk
    (mkM r o) where
  built := modR_built
  i1 := le_refl 1
  ij := by decide
  jn := by rw [modR_n]; decide
  hi := modR_1
  hj := modR_2
  mi := rfl
  mj := rfl
  fol := modR_follows 2
  sizes := modR_sizes
  nv := rfl
  hmk := rfl
  hS := fun _ _ _ => rfl
  call := MSetup.transform_eq ⟨modR_built.inv, le_refl 1, by decide, by rw [modR_n]; decide, modR_1, modR_2, rfl, rfl,
    modR_follows 2⟩ junk _ rfl

/-- a configuration of the result: joint 1, the quaternion of joint 3, joint 4 -/
def qMim : ℕ → ℚ := fun k => [1/3, 0, 3/5, 0, 4/5, 9/4].getD k 0

theorem modR_atM (r o : ℚ) : (modR.toSys (jtA 0) gA).At
    (insertAt e2M.idx_q e2M.desc.nq (linearAffine r o (seg qMim e1M.idx_q)) qMim) := by
  refine ⟨modR_at.1, fun i h1 hi => ?_⟩
  change i < modR.njoints at hi
  rw [modR_n] at hi
  change ((modR.joints[i]?.map (·.desc.payload)).getD (jtA 0)).Ok
    (seg _ ((modR.joints[i]?.map (·.idx_q)).getD 0))
  rw [modR_joints]
  interval_cases i
  · exact jRevolute_ok _ _
  · exact jPrismatic_ok _ _
  · exact jSpherical_ok (by simp [seg, insertAt, qMim, e2M]; norm_num)
  · exact jRevoluteUnaligned_ok (by norm_num [V3.sqNorm, ax]) _

/-- The hypotheses of `C77_kinematics` and `C77_inverse_dynamics` hold. -/
example (r o : ℚ) (v' a' : ℕ → ℚ) (d d' : Data ℚ) :
    (forwardKinematicsA ((mimR r o).toSys (jtA 0) gA) d' qMim v' a').oMi 4 =
      (forwardKinematicsA (modR.toSys (jtA 0) gA) d (insertAt 1 1 (linearAffine r o (seg qMim 0)) qMim)
        (insertAt 1 1 (fun k => r * v' (0 + k)) v') (insertAt 1 1 (fun k => r * a' (0 + k)) a')).oMi 4 := by
  have h := (C77_kinematics (mimR_call r o 0) (jtA 0) gA modR_local v' a' rfl rfl rfl (modR_atM r o) d d' (k := 4) (by decide)
    (by rw [modR_n]; decide)).1
  simp only [e1M, e2M] at h
  convert h

/-- **Finding.** The armature of the joint that becomes a mimic joint is lost: with zero scaling left aside, the torque of the
followed joint is not the sum of the two torques of the original model when the mimic joint had a rotor. -/
theorem C77_armature_counterexample (r o : ℚ) (hr : r ≠ 0) (v' a' : ℕ → ℚ) (ha : a' 0 ≠ 0) (d d' : Data ℚ) :
    (rnea ((mimR r o).toSys (jtA 0) gA) d' qMim v' a').tau 0 ≠
      (rnea (modR.toSys (jtA 0) gA) d (insertAt 1 1 (linearAffine r o (seg qMim 0)) qMim)
        (insertAt 1 1 (fun k => r * v' (0 + k)) v') (insertAt 1 1 (fun k => r * a' (0 + k)) a')).tau 0 +
      r * (rnea (modR.toSys (jtA 0) gA) d (insertAt 1 1 (linearAffine r o (seg qMim 0)) qMim)
        (insertAt 1 1 (fun k => r * v' (0 + k)) v') (insertAt 1 1 (fun k => r * a' (0 + k)) a')).tau 1 := by
  have h := C77_inverse_dynamics (mimR_call r o 0) (jtA 0) gA modR_local v' a' rfl rfl rfl (modR_atM r o) d d' (r := 0)
    (by change 0 < modR.nv - 1; rw [show modR.nv = 6 from by decide +kernel]; decide)
  rw [if_pos (by decide), show modR.armature.getD (e2M.idx_v + (0 - e1M.idx_v)) 0 = 2 by decide +kernel] at h
  simp only [e1M, e2M, skip, Nat.zero_lt_one, if_true, Nat.sub_self, Nat.add_zero] at h
  rw [show insertAt 1 1 (fun k => r * a' (0 + k)) a' 1 = r * a' 0 from rfl] at h
  intro hc
  have h' := (show _ = _ by convert h).symm.trans hc
  have : r * (r * a' 0) = 0 := by linarith
  rcases mul_eq_zero.1 this with h | h
  · exact hr h
  · rcases mul_eq_zero.1 h with h | h
    · exact hr h
    · exact ha h

/-- **Finding.** A joint that is already followed can be turned into a mimic joint, without any error: here joint 4 follows joint 2,
which then follows joint 1, both with scaling 3 and offset 1. Joint 4 then reads the coordinate of joint 1 with its own scaling and
offset instead of the composed ones, and its placement is wrong. -/
theorem C77_chain_counterexample : ∃ m' : Model ℚ (Joint ℚ), (∃ p, m'.joints[4]? = some p ∧ p.desc.mimic = some (2, 0, 0)) ∧
    buildMimicModel 0 mkM modR [(2, 4, 3, 1), (1, 2, 3, 1)] modR = .ok () m' ∧
    ∃ q' : ℕ → ℚ, (forwardKinematics (m'.toSys (jtA 0) gA) Data.zero q').oMi 4 ≠
      (forwardKinematics (modR.toSys (jtA 0) gA) Data.zero (insertAt 6 1 (fun _ => 3 * (3 * q' 0 + 1) + 1)
        (insertAt 1 1 (fun _ => 3 * q' 0 + 1) q'))).oMi 4 := by
  obtain ⟨m', hm⟩ : ∃ m', buildMimicModel 0 mkM modR [(2, 4, 3, 1), (1, 2, 3, 1)] modR = .ok () m' := ⟨_, rfl⟩
  refine ⟨m', ?_, hm, fun k => [1/2, 0, 3/5, 0, 4/5].getD k 0, ?_⟩
  · cases hm; exact ⟨_, rfl, rfl⟩
  · cases hm; decide +kernel

end Ex
end Pin
