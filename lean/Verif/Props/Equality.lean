import Verif.Props.Serialize

/-!
# C63: comparing models and changing their scalar type
-/

namespace Pin
open Arch
variable {K : Type}

/-! ## Comparison -/

private theorem jeqs_forall₂ [DecidableEq K] {a b : List (SJoint K)} (h : SJoint.jeqs a b = true) :
    List.Forall₂ (fun j j' => SJoint.jeq j j' = true) a b := by
  induction a generalizing b with
  | nil => cases b <;> simp_all [SJoint.jeqs]
  | cons j js ih =>
    cases b with
    | nil => simp [SJoint.jeqs] at h
    | cons j' js' =>
      simp only [SJoint.jeqs, Bool.and_eq_true] at h
      exact .cons h.1 (ih h.2)

private theorem idx_of_jeq [DecidableEq K] {a b : SJoint K} (h : SJoint.jeq a b = true) : a.idx = b.idx := by
  cases a <;> cases b <;> simp_all [SJoint.jeq, SJoint.idx]

/-- **Models found equal by `operator==` have equal members**: all of them but `supports`, `mimic_joint_supports`, the names
of the reference configurations, and the inertia and placement of the universe; and the joints, when the first model has no
aligned helical and no mimic joint. What is missing for the full property: those members (see the counterexamples). -/
theorem C63_equal_partial [DecidableEq K] (m o : SModel K) (h : m.eqv o = some true) :
    (o.nq = m.nq ∧ o.nv = m.nv ∧ o.nvx = m.nvx ∧ o.njoints = m.njoints ∧ o.nbodies = m.nbodies ∧ o.nframes = m.nframes) ∧
    (o.parents = m.parents ∧ o.children = m.children ∧ o.names = m.names ∧ o.subtrees = m.subtrees ∧
      o.mimicking = m.mimicking ∧ o.mimicked = m.mimicked) ∧
    (o.gravity = m.gravity ∧ o.name = m.name ∧ o.refs.map (·.2) = m.refs.map (·.2)) ∧
    (o.idx_qs = m.idx_qs ∧ o.nqs = m.nqs ∧ o.idx_vs = m.idx_vs ∧ o.nvs = m.nvs ∧ o.idx_vxs = m.idx_vxs ∧
      o.nvxs = m.nvxs) ∧
    (o.armature = m.armature ∧ o.friction = m.friction ∧ o.damping = m.damping ∧ o.rotorInertia = m.rotorInertia ∧
      o.rotorGearRatio = m.rotorGearRatio ∧ o.effortLimit = m.effortLimit ∧ o.velocityLimit = m.velocityLimit ∧
      o.lowerPositionLimit = m.lowerPositionLimit ∧ o.upperPositionLimit = m.upperPositionLimit) ∧
    (∀ i, 0 < i → i < m.inertias.length → o.inertias[i]? = m.inertias[i]?) ∧
    (∀ i, 0 < i → i < o.jointPlacements.length → o.jointPlacements[i]? = m.jointPlacements[i]?) ∧
    o.frames = m.frames ∧
    o.joints.length = m.joints.length ∧
    (∀ (i : ℕ) (j j' : SJoint K), o.joints[i]? = some j → m.joints[i]? = some j' →
      SJoint.idx j = SJoint.idx j' ∧ (j.transparent = true → j = j')) := by
  unfold SModel.eqv at h
  split at h
  case isFalse => simp at h
  case isTrue hh =>
  simp only [Bool.and_eq_true, decide_eq_true_eq] at hh
  obtain ⟨⟨⟨⟨⟨⟨⟨⟨⟨⟨⟨⟨⟨⟨⟨⟨⟨⟨⟨⟨⟨⟨⟨⟨⟨⟨⟨⟨⟨⟨h1, h2⟩, h3⟩, h4⟩, h5⟩, h6⟩, h7⟩, h8⟩, h9⟩, h10⟩, h11⟩, h12⟩, h13⟩, h14⟩, h15⟩, h16⟩, h17⟩,
    h18⟩, h19⟩, h20⟩, h21⟩, h22⟩, h23⟩, h24⟩, h25⟩, h26⟩, h27⟩, h28⟩, h29⟩, h30⟩, h31⟩ := hh
  split at h
  · simp at h
  split at h
  · simp at h
  split at h
  · simp at h
  split at h
  · simp at h
  rename_i g1 g2 g3 g4
  simp only [Bool.not_eq_true', Bool.not_eq_false] at g2 g4
  simp only [Option.some.injEq, Bool.and_eq_true] at h
  refine ⟨⟨h1, h2, h3, h4, h5, h6⟩, ⟨h7, h8, h9, h10, h11, h12⟩, ⟨eq_of_same h13, h14, (eq_of_same h22).symm⟩,
    ⟨h15, h16, h17, h18, h19, h20⟩, ⟨eq_of_same h23, eq_of_same h24, eq_of_same h25, eq_of_same h26, eq_of_same h27,
    eq_of_same h28, eq_of_same h29, eq_of_same h30, eq_of_same h31⟩, ?_, ?_, eq_of_same h.2, ?_⟩
  · intro i hi hl
    have e := congrArg (·[i - 1]?) (eq_of_same g2)
    simp only [List.getElem?_drop] at e
    rw [show 1 + (i - 1) = i by omega, List.getElem?_take_of_lt hl] at e
    exact e
  · intro i hi hl
    have e := congrArg (·[i - 1]?) (eq_of_same g4)
    simp only [List.getElem?_drop] at e
    rw [show 1 + (i - 1) = i by omega, List.getElem?_take_of_lt hl] at e
    exact e
  · have := jeqs_forall₂ h.1
    refine ⟨this.length_eq, fun i j j' e e' => ?_⟩
    have hp : SJoint.jeq j j' = true := by
      rw [List.forall₂_iff_get] at this
      obtain ⟨hi, rfl⟩ := List.getElem?_eq_some_iff.1 e
      obtain ⟨hi', rfl⟩ := List.getElem?_eq_some_iff.1 e'
      exact this.2 i hi hi'
    exact ⟨idx_of_jeq hp, fun ht => SJoint.eq_of_jeq j j' ht hp⟩


private theorem noNaN_save_snd {l : List (String × List (Flt K))} (h : NoNaN (save l : List (Tok K))) :
    NoNaN (save (l.map (·.2)) : List (Tok K)) := by
  intro hx
  apply h
  simp only [save, List.mem_cons, reduceCtorEq, false_or, List.flatMap_map, List.mem_flatMap] at hx ⊢
  obtain ⟨e, he, hx⟩ := hx
  refine ⟨e, he, ?_⟩
  rw [List.mem_append]; right
  simpa [save] using hx

private theorem noNaN_save_of_subset {α : Type} [Arch K α] {l l' : List α} (h : NoNaN (save l : List (Tok K)))
    (hs : l' ⊆ l) : NoNaN (save l' : List (Tok K)) := by
  intro hx
  apply h
  simp only [save, List.mem_cons, reduceCtorEq, false_or, List.mem_flatMap] at hx ⊢
  obtain ⟨e, he, hx⟩ := hx
  exact ⟨e, hs he, hx⟩

private theorem eqv_joints [DecidableEq K] (m : SModel K) (js : List (SJoint K)) (hn : NoNaN m.saveModel)
    (hj : SJoint.jeqs js m.joints = true) : m.eqv { m with joints := js } = some true := by
  unfold SModel.saveModel at hn
  simp only [noNaN_append] at hn
  obtain ⟨⟨⟨⟨⟨⟨⟨⟨⟨⟨⟨⟨⟨⟨⟨⟨⟨⟨⟨⟨⟨⟨⟨⟨⟨⟨⟨⟨⟨⟨⟨⟨⟨⟨⟨n1, n2⟩, n3⟩, n4⟩, n5⟩, n6⟩, n7⟩, n8⟩, n9⟩, n10⟩, n11⟩, n12⟩, n13⟩, n14⟩, n15⟩, n16⟩,
    n17⟩, n18⟩, n19⟩, n20⟩, n21⟩, n22⟩, n23⟩, n24⟩, n25⟩, n26⟩, n27⟩, n28⟩, n29⟩, n30⟩, n31⟩, n32⟩, n33⟩, n34⟩, n35⟩, n36⟩ := hn
  unfold SModel.eqv
  simp only [same_refl n21, same_refl (noNaN_save_snd n23), same_refl n24, same_refl n25, same_refl n26, same_refl n27,
    same_refl n28, same_refl n29, same_refl n30, same_refl n31, same_refl n32, same_refl n36, decide_true, Bool.and_self,
    if_true, hj, lt_irrefl, false_and, if_false, List.take_length,
    same_refl (noNaN_save_of_subset n33 (List.drop_subset 1 _)), same_refl (noNaN_save_of_subset n34 (List.drop_subset 1 _)),
    Bool.not_true, Bool.false_eq_true, if_false]

/-- **A model without NaN is equal to itself.** -/
theorem C63_refl [DecidableEq K] (m : SModel K) (h : NoNaN m.saveModel) : m.eqv m = some true := by
  have hj : NoNaN (SJoint.saveJs m.joints) := by
    unfold SModel.saveModel at h
    simp only [noNaN_append, noNaN_nat] at h
    exact h.1.2
  exact eqv_joints m m.joints h (SJoint.jeqs_refl _ hj)

/-- **A loaded model is equal to the model saved**, when there is no NaN. -/
theorem C63_loaded [DecidableEq K] (f : Fmt) (cur m : SModel K) (rest : List (Tok K)) (hc : cur.Placed) (hm : m.Placed)
    (hs : m.SortedRefs) (hf : f = .string → AllFinite m.saveModel) (h : NoNaN m.saveModel) :
    ∃ m', SModel.loadModel f cur (m.saveModel ++ rest) = some (m', rest) ∧ m.eqv m' = some true := by
  refine ⟨_, C62_mimic_partial f cur m rest hc hm hs hf, ?_⟩
  have hj : NoNaN (SJoint.saveJs m.joints) := by
    unfold SModel.saveModel at h
    simp only [noNaN_append, noNaN_nat] at h
    exact h.1.2
  have e := eqv_joints m (SJoint.forgets m.joints) h (SJoint.jeqs_forgets _ hj)
  rw [forgets_of_placed hm.mimics] at e
  exact e

/-! ## Change of scalar type -/

private theorem map_self {α : Type} (g : α → α) (l : List α) (h : ∀ x, g x = x) : l.map g = l := by
  conv_rhs => rw [← List.map_id l]
  exact List.map_congr_left fun x _ => h x

private theorem castJs_noMimic {js : List (SJoint K)} (h : ∀ j ∈ js, j.hasMimic = false) :
    SJoint.castJs (Conv.refl K) js = some js := by
  induction js with
  | nil => simp [SJoint.castJs]
  | cons j js ih =>
    rw [SJoint.castJs, SJoint.castJ_refl j (h j (by simp)), ih fun x hx => h x (by simp [hx])]; rfl

/-- **Converting a model to its own scalar type gives the same model**, when it has no mimic joint. What is missing for the
full property: mimic joints (`C63_cast_counterexample`). -/
theorem C63_cast_partial (m : SModel K) (hs : m.SortedRefs) (hn : ∀ j ∈ m.joints, j.hasMimic = false) :
    m.castModel (Conv.refl K) = some m := by
  unfold SModel.castModel
  rw [castJs_noMimic hn]
  simp only [Option.bind_eq_bind, Option.bind_some]
  rw [map_self (Conv.refl K).sc _ fun _ => rfl, map_self (Conv.refl K).sc _ fun _ => rfl,
    map_self (Conv.refl K).sc _ fun _ => rfl, map_self (Conv.refl K).sc _ fun _ => rfl,
    map_self (Conv.refl K).sc _ fun _ => rfl, map_self (Conv.refl K).sc _ fun _ => rfl,
    map_self (Conv.refl K).sc _ fun _ => rfl, map_self (Conv.refl K).sc _ fun _ => rfl,
    map_self (Conv.refl K).sc _ fun _ => rfl, map_self (castInertia (Conv.refl K)) _ fun _ => rfl,
    map_self (castSE3 (Conv.refl K)) _ fun _ => rfl, map_self (castFrame (Conv.refl K)) _ fun _ => rfl,
    map_self (fun e : String × List (Flt K) => (e.1, e.2.map (Conv.refl K).sc)) _ fun e => by
      rw [map_self (Conv.refl K).sc _ fun _ => rfl],
    foldl_mapInsert m.refs [] (by rw [List.nil_append]; exact hs)]
  rfl

private theorem castJ_idx {L : Type} (c : Conv K L) (j : SJoint K) (j' : SJoint L) (h : SJoint.castJ c j = some j') :
    j'.idx = j.idx ∧ j'.which = j.which := by
  cases j with
  | mimic ix jm s o a b =>
    simp only [SJoint.castJ, Option.bind_eq_bind, Option.bind_eq_some_iff] at h
    obtain ⟨jm', -, jm₁, -, k, hk, h⟩ := h
    unfold SJoint.setIndexes at hk
    split at hk
    · simp only [Option.some.injEq] at hk
      subst hk
      simp only [Option.bind_eq_some_iff, Option.some.injEq] at h
      obtain ⟨_, -, rfl⟩ := h
      exact ⟨rfl, rfl⟩
    · simp at hk
  | composite ix t js ps =>
    simp only [SJoint.castJ, Option.map_eq_some_iff] at h
    obtain ⟨_, -, rfl⟩ := h
    exact ⟨rfl, rfl⟩
  | _ =>
    simp only [SJoint.castJ, Option.some.injEq] at h
    subst h
    exact ⟨rfl, rfl⟩

private theorem castJs_idx {L : Type} (c : Conv K L) (js : List (SJoint K)) (js' : List (SJoint L))
    (h : SJoint.castJs c js = some js') : js'.map SJoint.idx = js.map SJoint.idx ∧ js'.map SJoint.which = js.map SJoint.which := by
  induction js generalizing js' with
  | nil =>
    simp only [SJoint.castJs, Option.some.injEq] at h
    subst h
    exact ⟨rfl, rfl⟩
  | cons j js ih =>
    simp only [SJoint.castJs, Option.bind_eq_bind, Option.bind_eq_some_iff, Option.some.injEq] at h
    obtain ⟨j', h1, js'', h2, rfl⟩ := h
    obtain ⟨e1, e2⟩ := ih js'' h2
    obtain ⟨e3, e4⟩ := castJ_idx c j j' h1
    simp only [List.map_cons, e1, e2, e3, e4, and_self]

/-- **A conversion keeps the structure of a model**: numbers, tables, names, the type and the indexes of every joint; and it
converts every number of the vectors of the model. -/
theorem C63_cast_structure {L : Type} (c : Conv K L) (m : SModel K) (m' : SModel L) (h : m.castModel c = some m') :
    (m'.nq = m.nq ∧ m'.nv = m.nv ∧ m'.nvx = m.nvx ∧ m'.njoints = m.njoints ∧ m'.nbodies = m.nbodies ∧
      m'.nframes = m.nframes) ∧
    (m'.parents = m.parents ∧ m'.children = m.children ∧ m'.names = m.names ∧ m'.subtrees = m.subtrees ∧
      m'.supports = m.supports ∧ m'.mimicSupports = m.mimicSupports ∧ m'.mimicking = m.mimicking ∧
      m'.mimicked = m.mimicked ∧ m'.name = m.name) ∧
    (m'.idx_qs = m.idx_qs ∧ m'.nqs = m.nqs ∧ m'.idx_vs = m.idx_vs ∧ m'.nvs = m.nvs ∧ m'.idx_vxs = m.idx_vxs ∧
      m'.nvxs = m.nvxs) ∧
    (m'.joints.map SJoint.idx = m.joints.map SJoint.idx ∧ m'.joints.map SJoint.which = m.joints.map SJoint.which) ∧
    (m'.armature = m.armature.map c.sc ∧ m'.friction = m.friction.map c.sc ∧ m'.damping = m.damping.map c.sc ∧
      m'.rotorInertia = m.rotorInertia.map c.sc ∧ m'.rotorGearRatio = m.rotorGearRatio.map c.sc ∧
      m'.effortLimit = m.effortLimit.map c.sc ∧ m'.velocityLimit = m.velocityLimit.map c.sc ∧
      m'.lowerPositionLimit = m.lowerPositionLimit.map c.sc ∧ m'.upperPositionLimit = m.upperPositionLimit.map c.sc) ∧
    (m'.inertias.length = m.inertias.length ∧ m'.inertias.map (·.mass) = m.inertias.map (c.sc ·.mass) ∧
      m'.jointPlacements.map (·.trans.x) = m.jointPlacements.map (c.sc ·.trans.x) ∧
      m'.jointPlacements.map (·.trans.y) = m.jointPlacements.map (c.sc ·.trans.y) ∧
      m'.jointPlacements.map (·.trans.z) = m.jointPlacements.map (c.sc ·.trans.z)) ∧
    (m'.frames.map (·.name) = m.frames.map (·.name) ∧ m'.frames.map (·.parentJoint) = m.frames.map (·.parentJoint)) := by
  unfold SModel.castModel at h
  simp only [Option.bind_eq_bind, Option.bind_eq_some_iff, Option.some.injEq] at h
  obtain ⟨js, hj, rfl⟩ := h
  refine ⟨⟨rfl, rfl, rfl, rfl, rfl, rfl⟩, ⟨rfl, rfl, rfl, rfl, rfl, rfl, rfl, rfl, rfl⟩, ⟨rfl, rfl, rfl, rfl, rfl, rfl⟩,
    castJs_idx c _ _ hj, ⟨rfl, rfl, rfl, rfl, rfl, rfl, rfl, rfl, rfl⟩, ⟨by simp, ?_, ?_, ?_, ?_⟩, ?_, ?_⟩ <;>
  simp [castInertia, castSE3, castV3, castFrame, Function.comp_def]

/-! ## Concrete cases -/

open SerEx

private theorem noNaN_of {l : List (Tok ℚ)} (h : l.all (fun t => match t with
    | .num .nan => false | _ => true) = true) : NoNaN l := fun hx => by
  have := List.all_eq_true.1 h _ hx
  simp at this

/-- `C63_refl`, `C63_equal_partial` -/
example : NoNaN (model [rev, comp, mim]).saveModel := noNaN_of (by decide +kernel)

/-- `C63_equal_partial` on two models which differ, in a member not compared -/
example : (model [rev, comp]).eqv { model [rev, comp] with supports := [] } = some true := by decide +kernel

/-- and `operator==` does tell models apart -/
example : (model [rev, comp]).eqv { model [rev, comp] with armature := [.fin 0, .fin 1, .fin 3] } = some false := by
  decide +kernel

/-- `C63_loaded` -/
example : ∃ m', SModel.loadModel .xml (model [rev, comp]) ((model [rev, comp, mim]).saveModel ++ []) = some (m', []) ∧
    (model [rev, comp, mim]).eqv m' = some true :=
  C63_loaded .xml _ _ [] placed0 placed1 (List.pairwise_singleton _ _) (by simp) (noNaN_of (by decide +kernel))

/-- `C63_cast_partial` -/
example : (model [rev, comp]).castModel (Conv.refl ℚ) = some (model [rev, comp]) :=
  C63_cast_partial _ (List.pairwise_singleton _ _) fun j h => by
    simp only [model, List.mem_cons, List.not_mem_nil, or_false] at h
    rcases h with rfl | rfl | rfl <;> simp [SJoint.default, SJoint.hasMimic, rev, comp, SJoint.haveMimic]

/-- `C63_cast_structure`: a conversion of a model with a mimic joint -/
example : ((model [rev, comp, mim]).castModel (L := ℤ)
    ⟨fun x => match x with | .fin q => .fin q.num | .inf b => .inf b | .nan => .nan, id⟩).isSome = true := rfl

/-! ## Findings -/

/-- Two joints of different pitch, or two mimic joints of different scaling, offset and followed joint, are found equal:
`joint/joint-helical.hpp` and `joint/joint-mimic.hpp` do not define `isEqual`, so that only the indexes are compared
(`joint-model-base.hpp:274-286`). -/
theorem C63_joint_counterexample :
    (SJoint.helical 2 ⟨1, 0, 0, 0⟩ (.fin 1) : SJoint ℚ).jeq (.helical 2 ⟨1, 0, 0, 0⟩ (.fin 5)) = true ∧
    (model [.helical 2 ⟨1, 0, 0, 0⟩ (.fin 1)]).eqv (model [.helical 2 ⟨1, 0, 0, 0⟩ (.fin 5)]) = some true ∧
    (model [rev, comp, mim]).eqv (model [rev, comp, .mimic ⟨3, 0, 0, 3⟩ (.plain .px ⟨2, 0, 0, 0⟩) (.fin 7) (.fin 8)
      (some 1) (some 1)]) = some true := by
  refine ⟨by decide +kernel, by decide +kernel, by decide +kernel⟩

/-- Two models whose reference configurations have different names, or whose supports differ, or whose universes have
different inertias and placements, are found equal by `operator==` (`multibody/model.hxx:305-402`). -/
theorem C63_model_counterexample :
    (model [rev, comp]).eqv { model [rev, comp] with refs := [("zero", [.fin 1, .fin 2, .fin 3])] } = some true ∧
    (model [rev, comp]).eqv { model [rev, comp] with supports := [[0], [1], [2]] } = some true ∧
    (model [rev, comp]).eqv { model [rev, comp] with inertias := [⟨.fin 5, v 0 0 0, ⟨.fin 1, .fin 0, .fin 1, .fin 0, .fin 0,
      .fin 1⟩⟩, iner] } = some true := by
  refine ⟨by decide +kernel, by decide +kernel, by decide +kernel⟩

/-- A model with a NaN, for instance in its inertias, is different from itself. -/
theorem C63_nan_counterexample : ∃ m : SModel ℚ, m.eqv m = some false :=
  ⟨{ model [rev] with armature := [.nan] }, by decide +kernel⟩

/-- Converting a mimic joint, even to its own scalar type, changes the joint it follows: `JointModelMimicTpl::cast`
(`joint/joint-mimic.hpp:743-753`) passes the extended velocity index of the mimic joint to `setMimicIndexes`, which stores
it in the copy of the followed joint. -/
theorem C63_cast_counterexample : ∃ (ix : JIdx) (jm jm' : SJoint ℚ) (s o : Flt ℚ),
    SJoint.castJ (Conv.refl ℚ) (.mimic ix jm s o (some 1) (some 1)) = some (.mimic ix jm' s o (some 1) (some 1)) ∧
    jm.idx.vx = 0 ∧ jm'.idx.vx = 3 :=
  ⟨⟨3, 0, 0, 3⟩, .axis .revolute ⟨1, 0, 0, 0⟩ (v 0 (3/5) (4/5)), .axis .revolute ⟨1, 0, 0, 3⟩ (v 0 (3/5) (4/5)), .fin 2,
    .fin 1, rfl, rfl, rfl⟩

end Pin
