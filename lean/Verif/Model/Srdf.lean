import Verif.LieGroup.GroupLemmas
import Verif.Geom.Lemmas
import Verif.Tree.Basic
import Mathlib.Analysis.SpecialFunctions.Trigonometric.Basic

/-!
# SRDF: disabled collisions, reference configurations, rotor parameters

Model of `parsers/srdf.hxx`. The document is the list of the children of the tag `robot`, as `boost::property_tree` gives them;
an attribute which is missing or cannot be converted is `none`, and reading it throws. The reading of the file, the test of its
extension, the XML syntax and the messages are left out. `cp` is a reference into the vector of pairs; `removeCollisionPair` does
not read it after the removal (`geometry.hxx:369-398`), so that it is modelled as a value.
-/

namespace Pin.Srdf
open Pin Model

/-- a child of `group_state`: `<joint name value>`, the value being the numbers read from the attribute -/
inductive JTag (K : Type*) where
  | joint (name : Option String) (value : Option (List K))
  | other

/-- a child of `rotor_params`: `<joint name mass gear_ratio>` -/
inductive RTag (K : Type*) where
  | joint (name : Option String) (mass gear : Option K)
  | other

/-- a child of `robot` -/
inductive Tag (K : Type*) where
  | disable (link1 link2 : Option String)
  | group (name : Option String) (joints : List (JTag K))
  | rotor (joints : List (RTag K))
  | other

/-! ## disabled collisions -/

/-- the loop on the collision pairs, `srdf.hxx:71-95`; `i` is the position of the iterator. The counter bounds the number of
iterations (`ub` when it is exhausted: the loop would go on with an iterator that does not advance). -/
def removeLoop (f1 f2 : ℕ) : ℕ → GeomModel → ℕ → Res GeomModel Unit
  | 0, _, _ => .ub
  | n + 1, g, i =>
    if i = g.pairs.length then .ok g ()
    else match g.pairs[i]? with
    | none => .ub
    | some cp =>
      match g.findCollisionPair cp, g.objects[cp.1]?, g.objects[cp.2]? with
      | some cp_index, some o1, some o2 =>
        if (o1.parentFrame = f1 ∧ o2.parentFrame = f2) ∨ (o2.parentFrame = f1 ∧ o1.parentFrame = f2) then
          match g.removeCollisionPair cp with
          | .ok g _ => removeLoop f1 f2 n g cp_index
          | .throw g => .throw g
          | .ub => .ub
        else removeLoop f1 f2 n g (i + 1)
      | _, _, _ => .ub

section
variable {K P : Type*} [Zero K] [One K]

/-- `details::removeCollisionPairs`, `srdf.hxx:28-100` -/
def removeCollisionPairs {L : Type*} (m : Model K P) : GeomModel → List (Tag L) → Res GeomModel Unit
  | g, [] => .ok g ()
  | g, .disable (some link1) (some link2) :: t =>
    if !m.existFrame link1 BODY || !m.existFrame link2 BODY then removeCollisionPairs m g t
    else match m.getFrameId link1 BODY, m.getFrameId link2 BODY with
    | some f1, some f2 =>
      if f1 = f2 then removeCollisionPairs m g t
      else match removeLoop f1 f2 (g.pairs.length + 1) g 0 with
      | .ok g _ => removeCollisionPairs m g t
      | .throw g => .throw g
      | .ub => .ub
    | _, _ => .throw g
  | g, .disable _ _ :: _ => .throw g
  | g, _ :: t => removeCollisionPairs m g t

end

/-! ## rotor parameters -/

section
variable {K P : Type*} [CommRing K]

/-- the body of the loop on the joints, `srdf.hxx:179-208`. Joint 0 is a default-constructed `JointModelRX`, with `nv() = 1` and
`idx_v() = -1`: its entry of `armature` is outside the vector. -/
def rotorJoint (m : Model K P) : RTag K → Res (Model K P) Unit
  | .other => .ok m ()
  | .joint (some name) (some mass) (some gear) =>
    let id := m.getJointId name
    if id ≠ m.joints.length then
      if id = 0 then .ub
      else match m.joints[id]? with
      | none => .ub
      | some e =>
        if e.desc.nv ≠ 1 then .throw m
        else .ok { m with
          armature := m.armature.set e.idx_v (m.armature.getD e.idx_v 0 + mass * gear * gear)
          rotorInertia := m.rotorInertia.set e.idx_v mass
          rotorGearRatio := m.rotorGearRatio.set e.idx_v gear } ()
    else .ok m ()
  | .joint _ _ _ => .throw m

/-- the loop on the joints, `srdf.hxx:177-209` -/
def rotorJoints : Model K P → List (RTag K) → Res (Model K P) Unit
  | m, [] => .ok m ()
  | m, r :: t => match rotorJoint m r with
    | .ok m _ => rotorJoints m t
    | .throw m => .throw m
    | .ub => .ub

/-- `loadRotorParameters`, `srdf.hxx:140-215`: only the first tag `rotor_params` is read -/
def loadRotorParameters (m : Model K P) : List (Tag K) → Res (Model K P) Unit
  | [] => .throw m
  | .rotor joints :: _ => rotorJoints m joints
  | _ :: t => loadRotorParameters m t

end

/-! ## reference configurations -/

open Lie

/-- `LoadReferenceConfigurationStep`, `srdf.hxx:217-272`; `rub id` tells whether the joint is a `JointModelRevoluteUnboundedTpl`
(around an axis of the frame). `none`: joint 0, a `JointModelRX` with `idx_q() = -1`, for which the segment is outside the
vector. -/
noncomputable def setJoint (rub : ℕ → Bool) (m : Model ℝ LJ) (q : ℕ → ℝ) (id : ℕ) (fromXML : List ℝ) : Option (ℕ → ℝ) :=
  if id = 0 then (if fromXML.length = 1 then none else some q)
  else match m.joints[id]? with
  | none => none
  | some e =>
    if rub id then
      if fromXML.length ≠ 1 then some q
      else some (upd (upd q (e.idx_q + 1) (Real.sin (fromXML.getD 0 0))) e.idx_q (Real.cos (fromXML.getD 0 0)))
    else if e.desc.nq ≠ fromXML.length then some q
    else some (writeSeg q e.idx_q e.desc.nq fun k => fromXML.getD k 0)

/-- the loop on the joints of a group, `srdf.hxx:323-360` -/
noncomputable def groupJoints (rub : ℕ → Bool) (m : Model ℝ LJ) : (ℕ → ℝ) → List (JTag ℝ) → Res Unit (ℕ → ℝ)
  | q, [] => .ok () q
  | q, .other :: t => groupJoints rub m q t
  | q, .joint (some name) value :: t =>
    let id := m.getJointId name
    if id ≠ m.joints.length then
      match value with
      | none => .throw ()
      | some x => match setJoint rub m q id x with
        | none => .ub
        | some q => groupJoints rub m q t
    else groupJoints rub m q t
  | _, .joint none _ :: _ => .throw ()

/-- `loadReferenceConfigurationsFromXML`, `srdf.hxx:299-372`, on the map `referenceConfigurations`; `junk` is the content of the
vector before `neutral`. `insert` does nothing when the key is present. -/
noncomputable def loadReferences (rub : ℕ → Bool) (m : Model ℝ LJ) (junk : ℕ → ℝ) :
    (String → Option (ℕ → ℝ)) → List (Tag ℝ) → Res (String → Option (ℕ → ℝ)) Unit
  | refs, [] => .ok refs ()
  | refs, .group (some name) joints :: t =>
    match groupJoints rub m (neutral m junk) joints with
    | .ok _ q => loadReferences rub m junk (if (refs name).isSome then refs else Function.update refs name (some q)) t
    | .throw _ => .throw refs
    | .ub => .ub
  | refs, .group none _ :: _ => .throw refs
  | refs, _ :: t => loadReferences rub m junk refs t

/-! ## lemmas -/

/-- the pair of objects belongs to the two frames -/
def between (f1 f2 : ℕ) (objects : List GObj) (p : CPair) : Bool :=
  match objects[p.1]?, objects[p.2]? with
  | some o1, some o2 => decide ((o1.parentFrame = f1 ∧ o2.parentFrame = f2) ∨ (o2.parentFrame = f1 ∧ o1.parentFrame = f2))
  | _, _ => false

theorem same_sy {p r : CPair} : CPair.same p r = true ↔ GeomModel.sy p = GeomModel.sy r := by
  unfold CPair.same
  rw [GeomModel.sy_eq (p := p) (a := r.1) (b := r.2)]
  simp

theorem removeLoop_ok (f1 f2 : ℕ) (n : ℕ) : ∀ (g : GeomModel) (i : ℕ), g.Inv → i ≤ g.pairs.length → g.pairs.length - i < n →
    ∃ g', removeLoop f1 f2 n g i = .ok g' () ∧ g'.Inv ∧ g'.ngeoms = g.ngeoms ∧ g'.objects = g.objects ∧
      g'.pairs = g.pairs.take i ++ (g.pairs.drop i).filter (fun p => !between f1 f2 g.objects p) := by
  induction n with
  | zero => intro g i _ _ h; omega
  | succ n ih =>
    intro g i hg hi hn
    rw [removeLoop]
    by_cases he : i = g.pairs.length
    · rw [if_pos he]
      refine ⟨g, rfl, hg, rfl, rfl, ?_⟩
      rw [he, List.take_length, List.drop_length]; simp
    · rw [if_neg he]
      have hlt : i < g.pairs.length := by omega
      have hcp : g.pairs[i]? = some g.pairs[i] := List.getElem?_eq_getElem hlt
      obtain ⟨hv1, hv2, hv3⟩ := hg.valid _ (List.getElem_mem hlt)
      have hsplit : g.pairs = g.pairs.take i ++ g.pairs[i] :: g.pairs.drop (i + 1) := by
        rw [← List.drop_eq_getElem_cons hlt, List.take_append_drop]
      have hmap := hg.pos i _ hcp
      generalize g.pairs[i] = cp at *
      have hfind : g.findCollisionPair cp = some i := by
        unfold GeomModel.findCollisionPair
        have := hg.dim
        rw [if_pos ⟨by omega, by omega⟩, hmap.1, if_neg (by omega)]
        rfl
      have h1 : g.objects[cp.1]? = some (g.objects[cp.1]'(by rw [hg.len]; exact hv2)) := List.getElem?_eq_getElem _
      have h2 : g.objects[cp.2]? = some (g.objects[cp.2]'(by rw [hg.len]; exact hv3)) := List.getElem?_eq_getElem _
      rw [hcp]
      dsimp only
      rw [hfind, h1, h2]
      dsimp only
      split
      · rename_i hrem
        have hb : between f1 f2 g.objects cp = true := by
          unfold between; rw [h1, h2]; exact decide_eq_true hrem
        rcases hg.removePair hv1 with ⟨hn', -⟩ | ⟨-, g', hr, hg', hp, hng, hob⟩
        · exact absurd ⟨hv2, hv3⟩ hn'
        rw [hr]
        dsimp only
        have hnd := hg.nodup
        rw [hsplit, List.map_append, List.map_cons, List.nodup_append] at hnd
        obtain ⟨-, hnd2, hnd3⟩ := hnd
        rw [List.nodup_cons] at hnd2
        have hp' : g'.pairs = g.pairs.take i ++ g.pairs.drop (i + 1) := by
          rw [hp]
          conv_lhs => rw [hsplit]
          rw [List.filter_append, List.filter_cons_of_neg (by simp [same_sy])]
          congr 1
          · rw [List.filter_eq_self]
            intro r hr'
            simp only [Bool.not_eq_true', ← Bool.not_eq_true, same_sy]
            exact fun e => hnd3 _ (List.mem_map_of_mem hr') _ List.mem_cons_self e
          · rw [List.filter_eq_self]
            intro r hr'
            simp only [Bool.not_eq_true', ← Bool.not_eq_true, same_sy]
            exact fun e => hnd2.1 (e ▸ List.mem_map_of_mem hr')
        have hlen : (g.pairs.take i).length = i := by rw [List.length_take]; omega
        have hlen' : g'.pairs.length = g.pairs.length - 1 := by
          rw [hp', List.length_append, hlen, List.length_drop]; omega
        obtain ⟨g'', e1, e2, e3, e4, e5⟩ := ih g' i hg' (by omega) (by omega)
        refine ⟨g'', e1, e2, e3.trans hng, e4.trans hob, ?_⟩
        rw [e5, hob, hp', List.take_left' hlen, List.drop_left' hlen]
        conv_rhs => rw [hsplit, List.take_left' hlen, List.drop_left' hlen, List.filter_cons_of_neg (by simp [hb])]
      · rename_i hrem
        have hb : between f1 f2 g.objects cp = false := by
          unfold between; rw [h1, h2]; exact decide_eq_false hrem
        obtain ⟨g'', e1, e2, e3, e4, e5⟩ := ih g (i + 1) hg (by omega) (by omega)
        refine ⟨g'', e1, e2, e3, e4, ?_⟩
        have hlen : (g.pairs.take i).length = i := by rw [List.length_take]; omega
        rw [e5]
        have ht : g.pairs.take (i + 1) = g.pairs.take i ++ [cp] := by
          rw [List.take_add_one, hcp]; rfl
        have hd : g.pairs.drop i = cp :: g.pairs.drop (i + 1) := by
          conv_lhs => rw [hsplit]
          rw [List.drop_left' hlen]
        rw [ht, hd, List.filter_cons_of_pos (by simp [hb])]
        simp

end Pin.Srdf
