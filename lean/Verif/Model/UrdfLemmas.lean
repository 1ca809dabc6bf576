import Verif.Spec.Urdf
import Verif.Model.ReachLemmas

/-! # Lemmas on the parser of URDF trees -/

set_option linter.unusedSectionVars false
set_option linter.unusedSimpArgs false

namespace Pin
namespace Model
variable {K P : Type*} [Field K] [LinearOrder K] [HasEps K]

theorem link_eq {m : Model K P} (h : FramesDistinct m.frames) (n : String) :
    m.link n = m.frames.find? (filterFrame n BODY) := by
  have := getFrameId_single h n 3
  have e : (2 : ℕ) ^ 3 = BODY := rfl
  rw [e] at this
  rw [link, this, List.find?_eq_getElem?_findIdx]; rfl

theorem urdfBodyId_spec {m : Model K P} (h : FramesDistinct m.frames) {n : String} {f : Frame K} (hl : m.link n = some f) :
    ∃ i, m.urdfBodyId n = some i ∧ m.frames[i]? = some f := by
  have hg := getFrameId_single h n 3
  have e : (2 : ℕ) ^ 3 = BODY := rfl
  rw [e] at hg
  have hf := link_eq h n
  rw [hl] at hf
  have hex : m.existFrame n BODY = true := by
    unfold existFrame
    rw [List.any_eq_true]
    exact ⟨f, List.mem_of_find?_eq_some hf.symm, List.find?_some hf.symm⟩
  refine ⟨m.frames.findIdx (filterFrame n BODY), ?_, ?_⟩
  · unfold urdfBodyId; rw [hex, if_pos rfl, hg]
  · rw [← List.find?_eq_getElem?_findIdx, ← hf]

/-- the state after a frame has been added -/
def pushFrame (m : Model K P) (f : Frame K) : Model K P :=
  { m with
      frames := m.frames ++ [f]
      inertias := m.inertias.modify f.parentJoint (fun Y => Y + f.inertia.act f.placement)
      nframes := m.nframes + 1 }

theorem addFrame_fresh {m : Model K P} {f : Frame K} (h1 : f.parentJoint < m.njoints)
    (h2 : m.existFrame f.name f.type = false) : m.addFrame f = .ok (m.pushFrame f) m.nframes := by
  unfold addFrame
  rw [if_neg (not_not.2 h1), h2]
  rfl

/-- the state after an inertia has been appended -/
def addB (m : Model K P) (Y : Inertia K) (j : ℕ) (p : SE3 K) : Model K P :=
  if Y ≠ 0 then { m with inertias := m.inertias.modify j (fun X => X + Y.act p), nbodies := m.nbodies + 1 } else m

theorem existFrame_ext (m : Model K P) (l : List (Frame K)) (n : String) (t : ℕ) {m' : Model K P}
    (h : m'.frames = m.frames ++ l) : m'.existFrame n t = (m.existFrame n t || l.any (filterFrame n t)) := by
  unfold existFrame
  rw [h, List.any_append]

theorem filter_ne {n : String} {t : ℕ} {f : Frame K} (h : (t &&& f.type) = 0 ∨ n ≠ f.name) : filterFrame n t f = false := by
  unfold filterFrame
  rcases h with h | h
  · simp [h]
  · simp [h]

theorem addB_fields (m : Model K P) (Y : Inertia K) (j : ℕ) (p : SE3 K) :
    (m.addB Y j p).frames = m.frames ∧ (m.addB Y j p).njoints = m.njoints ∧ (m.addB Y j p).nframes = m.nframes ∧
      (m.addB Y j p).inertias.length = m.inertias.length := by
  unfold addB
  split <;> simp

theorem urdfAppendBody_fresh {m : Model K P} (hi : Inv m) {fid : ℕ} {f : Frame K} (Y : Inertia K) (M : SE3 K) {body : String}
    (hf : m.frames[fid]? = some f) (hj : f.parentJoint < m.njoints) (hb : m.existFrame body BODY = false) :
    m.urdfAppendBody fid Y M body = .ok ((m.addB Y f.parentJoint (f.placement * M)).pushFrame
      ⟨body, f.parentJoint, fid, f.placement * M, BODY, 0⟩) () := by
  unfold urdfAppendBody
  rw [hf]
  dsimp only
  have hadd : (if Y ≠ 0 then m.appendBodyToJoint f.parentJoint Y (f.placement * M) else .ok m ())
      = .ok (m.addB Y f.parentJoint (f.placement * M)) () := by
    unfold addB
    by_cases hY : Y ≠ 0
    · rw [if_pos hY, if_pos hY]
      unfold appendBodyToJoint
      rw [if_neg (not_not.2 (by rw [hi.lens.inertias]; exact hj))]
    · rw [if_neg hY, if_neg hY]
  rw [hadd]
  obtain ⟨e1, e2, e3, -⟩ := addB_fields m Y f.parentJoint (f.placement * M)
  change ((m.addB Y f.parentJoint (f.placement * M)).addBodyFrame body f.parentJoint (f.placement * M) (some fid)).bind _ = _
  unfold addBodyFrame
  dsimp only
  have hlt : fid < m.frames.length := by
    by_contra hc
    rw [List.getElem?_eq_none (by omega)] at hf; cases hf
  rw [if_neg (not_not.2 (by rw [e1]; exact hlt)), addFrame_fresh]
  · rfl
  · change f.parentJoint < _; rw [e2]; exact hj
  · rw [existFrame_ext m [] body BODY (by rw [e1]; simp)]; simp [hb]

theorem addJointFrame_fresh {m : Model K P} (hi : Inv m) {j p : ℕ} {n : String} (hj : j < m.njoints) (hn : m.names[j]? = some n)
    (hb : m.existFrame n JOINT = false) :
    m.addJointFrame j (some p) = .ok (m.pushFrame ⟨n, j, p, 1, JOINT, 0⟩) m.nframes := by
  unfold addJointFrame
  rw [if_neg (not_not.2 (by rw [hi.lens.joints]; exact hj))]
  dsimp only
  have : m.names.getD j "" = n := by rw [List.getD, hn]; rfl
  rw [this]
  exact addFrame_fresh hj hb

theorem inv_pushFrame {m : Model K P} (h : Inv m) (f : Frame K) : Inv (m.pushFrame f) :=
  inv_frames h _ _ _ m.nbodies (by simp) (by simp [h.lens.nframes])

theorem inv_addB {m : Model K P} (h : Inv m) (Y : Inertia K) (j : ℕ) (p : SE3 K) : Inv (m.addB Y j p) := by
  unfold addB
  split
  · exact inv_frames h _ m.frames m.nframes _ (by simp) h.lens.nframes
  · exact h

/-- the frame of the new joint -/
def jframe (m : Model K P) (n : String) (pid : ℕ) : Frame K := ⟨n, m.njoints, pid, 1, JOINT, 0⟩
/-- the frame of the body on the new joint -/
def bframe (m : Model K P) (body : String) : Frame K := ⟨body, m.njoints, m.nframes, (1 : SE3 K) * 1, BODY, 0⟩
/-- the state once a joint and its body are there -/
def jointAdded (m m1 : Model K P) (n : String) (pid : ℕ) (Y : Inertia K) (body : String) : Model K P :=
  ((m1.pushFrame (m.jframe n pid)).addB Y m.njoints ((1 : SE3 K) * 1)).pushFrame (m.bframe body)

theorem mask_joint : (JOINT ||| FIXED_JOINT : ℕ) = 6 := rfl

theorem existFrame_sub {m : Model K P} {n : String} (h : m.existFrame n (JOINT ||| FIXED_JOINT) = false) :
    m.existFrame n JOINT = false ∧ m.existFrame n FIXED_JOINT = false := by
  unfold existFrame at h ⊢
  rw [List.any_eq_false] at h
  have bit : ∀ f : Frame K, filterFrame n JOINT f = true ∨ filterFrame n FIXED_JOINT f = true →
      filterFrame n (JOINT ||| FIXED_JOINT) f = true := by
    intro f hf
    unfold filterFrame at hf ⊢
    simp only [Bool.and_eq_true, bne_iff_ne, ne_eq, beq_iff_eq] at hf ⊢
    rw [Nat.and_or_distrib_right]
    rcases hf with ⟨h1, h2⟩ | ⟨h1, h2⟩
    · refine ⟨fun h => h1 ?_, h2⟩
      exact (Nat.or_eq_zero_iff.1 h).1
    · refine ⟨fun h => h1 ?_, h2⟩
      exact (Nat.or_eq_zero_iff.1 h).2
  constructor <;> rw [List.any_eq_false] <;> intro f hf hp
  · exact h f hf (bit f (Or.inl hp))
  · exact h f hf (bit f (Or.inr hp))

/-- `urdfAddJoint` under fresh names -/
theorem urdfAddJoint_fresh {m : Model K P} (hi : Inv m) {a : JointArgs K P} (hok : OpOk m (.addJoint a)) {pid : ℕ} {Y : Inertia K}
    {body : String} (hn : m.existFrame a.name JOINT = false) (hb : m.existFrame body BODY = false) :
    (¬ ArgsOk m a ∧ m.urdfAddJoint a pid Y body = .throw m) ∨
    (ArgsOk m a ∧ ∃ e m1, m.addJoint a = .ok m1 m.njoints ∧ Added m a e m1 ∧
      m.urdfAddJoint a pid Y body = .ok (m.jointAdded m1 a.name pid Y body) ()) := by
  rcases addJoint_cases m a hi hok with ⟨hA, he⟩ | ⟨hA, e, m1, he, ad⟩
  · left
    exact ⟨hA, by unfold urdfAddJoint; rw [he]; rfl⟩
  · right
    refine ⟨hA, e, m1, he, ad, ?_⟩
    have i1 := inv_added hi hA hok ad
    unfold urdfAddJoint
    rw [he]
    change (m1.addJointFrame m.njoints (some pid)).bind _ = _
    rw [addJointFrame_fresh i1 (n := a.name) (by rw [ad.njoints]; omega)
      (by rw [ad.names, ← hi.lens.names]; simp)
      (by rw [existFrame_ext m [] a.name JOINT (by rw [ad.frames]; simp)]; simp [hn])]
    change (m1.pushFrame (m.jframe a.name pid)).urdfAppendBody m1.nframes Y 1 body = _
    rw [urdfAppendBody_fresh (f := m.jframe a.name pid) (inv_pushFrame i1 _) Y 1]
    · unfold jointAdded bframe jframe
      rw [ad.nframes]
    · unfold pushFrame
      dsimp only
      rw [← i1.lens.nframes]; simp
    · unfold pushFrame jframe
      dsimp only
      rw [ad.njoints]; omega
    · rw [existFrame_ext m [m.jframe a.name pid] body BODY (by unfold pushFrame; rw [ad.frames])]
      rw [hb]; simp [filterFrame, jframe, BODY, JOINT]

/-- the frame of a fixed joint -/
def fframe (fp : Frame K) (pid : ℕ) (M : SE3 K) (n : String) (Y : Inertia K) : Frame K :=
  ⟨n, fp.parentJoint, pid, fp.placement * M, FIXED_JOINT, Y⟩
/-- the frame of the body behind a fixed joint -/
def fbframe (m : Model K P) (fp : Frame K) (M : SE3 K) (body : String) : Frame K :=
  ⟨body, fp.parentJoint, m.nframes, fp.placement * M, BODY, 0⟩

theorem urdfAddFixed_fresh {m : Model K P} (hi : Inv m) {pid : ℕ} {fp : Frame K} (M : SE3 K) {n : String} (Y : Inertia K) {body : String}
    (hf : m.frames[pid]? = some fp) (hj : fp.parentJoint < m.njoints) (hn : m.existFrame n FIXED_JOINT = false)
    (hb : m.existFrame body BODY = false) :
    m.urdfAddFixed pid M n Y body = .ok ((m.pushFrame (fframe fp pid M n Y)).pushFrame (m.fbframe fp M body)) () := by
  unfold urdfAddFixed
  rw [hf]
  dsimp only
  rw [addFrame_fresh (by exact hj) (by exact hn)]
  change ((m.pushFrame (fframe fp pid M n Y)).addBodyFrame body fp.parentJoint (fp.placement * M) (some m.nframes)).bind _ = _
  unfold addBodyFrame
  dsimp only
  rw [if_neg (not_not.2 (by unfold pushFrame; dsimp only; rw [← hi.lens.nframes]; simp)), addFrame_fresh]
  · rfl
  · exact hj
  · rw [existFrame_ext m [fframe fp pid M n Y] body BODY rfl]
    rw [hb]; simp [filterFrame, fframe, BODY, FIXED_JOINT]

/-! ## states that follow -/

/-- the tables only grow at the end, except for the inertias -/
structure Ext (m m' : Model K P) : Prop where
  frames : m.frames <+: m'.frames
  joints : m.joints <+: m'.joints
  names : m.names <+: m'.names
  parents : m.parents <+: m'.parents
  jointPlacements : m.jointPlacements <+: m'.jointPlacements
  effortLimit : m.effortLimit <+: m'.effortLimit
  velocityLimit : m.velocityLimit <+: m'.velocityLimit
  lowerPositionLimit : m.lowerPositionLimit <+: m'.lowerPositionLimit
  upperPositionLimit : m.upperPositionLimit <+: m'.upperPositionLimit
  friction : m.friction <+: m'.friction
  damping : m.damping <+: m'.damping

theorem Ext.refl (m : Model K P) : Ext m m := by
  constructor <;> exact List.prefix_refl _

theorem Ext.trans {a b c : Model K P} (h : Ext a b) (g : Ext b c) : Ext a c :=
  ⟨h.frames.trans g.frames, h.joints.trans g.joints, h.names.trans g.names, h.parents.trans g.parents,
    h.jointPlacements.trans g.jointPlacements, h.effortLimit.trans g.effortLimit, h.velocityLimit.trans g.velocityLimit,
    h.lowerPositionLimit.trans g.lowerPositionLimit, h.upperPositionLimit.trans g.upperPositionLimit,
    h.friction.trans g.friction, h.damping.trans g.damping⟩

theorem ext_pushFrame (m : Model K P) (f : Frame K) : Ext m (m.pushFrame f) := by
  constructor <;> first | exact List.prefix_append _ _ | exact List.prefix_refl _

theorem ext_addB (m : Model K P) (Y : Inertia K) (j : ℕ) (p : SE3 K) : Ext m (m.addB Y j p) := by
  unfold addB
  split
  · constructor <;> exact List.prefix_refl _
  · exact .refl m

theorem ext_added {m m' : Model K P} {a : JointArgs K P} {e : JEntry P} (ad : Added m a e m') : Ext m m' := by
  constructor
  · rw [ad.frames]
  · rw [ad.joints]; exact List.prefix_append _ _
  · rw [ad.names]; exact List.prefix_append _ _
  · rw [ad.parents]; exact List.prefix_append _ _
  · rw [ad.jointPlacements]; exact List.prefix_append _ _
  · rw [ad.effortLimit]; exact List.prefix_append _ _
  · rw [ad.velocityLimit]; exact List.prefix_append _ _
  · rw [ad.lowerPositionLimit]; exact List.prefix_append _ _
  · rw [ad.upperPositionLimit]; exact List.prefix_append _ _
  · rw [ad.friction]; exact List.prefix_append _ _
  · rw [ad.damping]; exact List.prefix_append _ _

theorem prefix_get {α : Type*} {l l' : List α} (h : l <+: l') {i : ℕ} {x : α} (hx : l[i]? = some x) : l'[i]? = some x := by
  obtain ⟨t, rfl⟩ := h
  have : i < l.length := by
    by_contra hc
    rw [List.getElem?_eq_none (by omega)] at hx; cases hx
  rw [List.getElem?_append_left this]; exact hx

theorem prefix_slice {l l' : List K} (h : l <+: l') {i n : ℕ} (hx : i + n ≤ l.length) : slice l' i n = slice l i n := by
  obtain ⟨t, rfl⟩ := h
  unfold slice
  rw [List.drop_append_of_le_length (by omega), List.take_append_of_le_length (by rw [List.length_drop]; omega)]

theorem slice_end (l x : List K) (n : ℕ) (h : x.length = n) (i : ℕ) (hi : i = l.length) : slice (l ++ x) i n = x := by
  subst h hi
  simp [slice]

theorem Ext.link {m m' : Model K P} (h : Ext m m') (d : FramesDistinct m.frames) (d' : FramesDistinct m'.frames) {n : String}
    {f : Frame K} (hf : m.link n = some f) : m'.link n = some f := by
  rw [link_eq d] at hf
  rw [link_eq d']
  exact h.frames.find?_eq_some hf

theorem HasJoint.ext {m m' : Model K P} (h : Ext m m') {i : ℕ} {a : UArgs K P} (ha : a.effort.length = a.nv ∧ a.velocity.length = a.nv ∧
      a.lower.length = a.nq ∧ a.upper.length = a.nq ∧ a.friction.length = a.nv ∧ a.damping.length = a.nv) (hj : HasJoint m i a) :
    HasJoint m' i a := by
  obtain ⟨e, h1, h2, h3, h4, h5, h6, h7, h8⟩ := hj
  obtain ⟨a1, a2, a3, a4, a5, a6⟩ := ha
  have key : ∀ {l l' x : List K} {i n : ℕ}, l <+: l' → x.length = n → slice l i n = x → slice l' i n = x := by
    intro l l' x i n hp hx hs
    by_cases hn : n = 0
    · subst hn
      rw [List.length_eq_zero_iff] at hx
      subst hx; simp [slice]
    · rw [prefix_slice hp, hs]
      have := congrArg List.length hs
      rw [hx] at this
      unfold slice at this
      rw [List.length_take, List.length_drop] at this
      omega
  exact ⟨e, prefix_get h.joints h1, h2, key h.effortLimit a1 h3, key h.velocityLimit a2 h4, key h.lowerPositionLimit a3 h5,
    key h.upperPositionLimit a4 h6, key h.friction a5 h7, key h.damping a6 h8⟩

theorem HasMimic.ext {C : JColl K P} {m m' : Model K P} (h : Ext m m') {i : ℕ} {j : UJoint K} {x : String × K × K}
    (hm : HasMimic C m i j x) : HasMimic C m' i j x := by
  obtain ⟨k, e, e', p, h1, h2, h3, h4, h5⟩ := hm
  exact ⟨k, e, e', p, h1, prefix_get h.names h2, prefix_get h.joints h3, prefix_get h.joints h4, h5⟩

theorem says_lengths {C : JColl K P} {j : UJoint K} {a : UArgs K P} (h : j.Says C a) :
    a.effort.length = a.nv ∧ a.velocity.length = a.nv ∧
      a.lower.length = a.nq ∧ a.upper.length = a.nq ∧ a.friction.length = a.nv ∧ a.damping.length = a.nv := by
  cases h <;> simp

theorem EdgeOk.ext {C : JColl K P} {mimic : Bool} {m m' : Model K P} (h : Ext m m') (d : FramesDistinct m.frames)
    (d' : FramesDistinct m'.frames) {p c : String} {j : UJoint K} (hm : EdgeOk C mimic m p j c) : EdgeOk C mimic m' p j c := by
  obtain ⟨fp, fc, h1, h2, h3⟩ := hm
  refine ⟨fp, fc, h.link d d' h1, h.link d d' h2, ?_⟩
  split at h3
  · rw [if_pos (by assumption)]; exact h3
  · rw [if_neg (by assumption)]
    obtain ⟨a1, a2, a3, a4, a5, a6⟩ := h3
    refine ⟨a1, a2, prefix_get h.names a3, prefix_get h.parents a4, prefix_get h.jointPlacements a5, ?_⟩
    rcases a6 with ⟨x, b1, b2⟩ | ⟨b1, a, b2, b3⟩
    · exact Or.inl ⟨x, b1, b2.ext h⟩
    · exact Or.inr ⟨b1, a, b2, b3.ext h (says_lengths b2)⟩

/-! ## what the parser makes of a joint -/

theorem near_iff (a : V3 K) (i : Fin 3) : a.isApprox (unitAxis i) = true ↔ a.Near (unitAxis i) := by
  unfold V3.isApprox V3.Near
  rw [decide_eq_true_iff, sq]
  rfl

theorem axis_unit : (⟨1, 0, 0⟩ : V3 K) = unitAxis 0 ∧ (⟨0, 1, 0⟩ : V3 K) = unitAxis 1 ∧ (⟨0, 0, 1⟩ : V3 K) = unitAxis 2 := by
  refine ⟨?_, ?_, ?_⟩ <;> rfl

theorem extract_spec (a : V3 K) : (∀ i, extractCartesianAxis a = some i → a.Near (unitAxis i)) ∧
    (extractCartesianAxis a = none → ∀ i, ¬ a.Near (unitAxis i)) := by
  unfold extractCartesianAxis
  rw [axis_unit.1, axis_unit.2.1, axis_unit.2.2]
  by_cases h0 : a.isApprox (unitAxis 0) = true
  · rw [if_pos h0]
    refine ⟨fun i hi => ?_, fun h => by cases h⟩
    cases hi; exact (near_iff a 0).1 h0
  rw [if_neg h0]
  by_cases h1 : a.isApprox (unitAxis 1) = true
  · rw [if_pos h1]
    refine ⟨fun i hi => ?_, fun h => by cases h⟩
    cases hi; exact (near_iff a 1).1 h1
  rw [if_neg h1]
  by_cases h2 : a.isApprox (unitAxis 2) = true
  · rw [if_pos h2]
    refine ⟨fun i hi => ?_, fun h => by cases h⟩
    cases hi; exact (near_iff a 2).1 h2
  rw [if_neg h2]
  refine ⟨fun i hi => by (cases hi), fun _ i hi => ?_⟩
  rw [← near_iff] at hi
  match i, hi with
  | 0, hi => exact h0 hi
  | 1, hi => exact h1 hi
  | 2, hi => exact h2 hi

theorem alignedOr_spec (C : JColl K P) (al : Fin 3 → P) (un : V3 K → P) (a : V3 K) : AxisJoint C al un a (alignedOr C al un a) := by
  unfold alignedOr
  cases h : extractCartesianAxis a with
  | some i => exact .aligned i ((extract_spec a).1 i h)
  | none => exact .other ((extract_spec a).2 h)

theorem urdfArgs_says {C : JColl K P} {j : UJoint K} {a : UArgs K P} (h : urdfArgs C j = some (some a)) : j.Says C a := by
  unfold urdfArgs at h
  dsimp only at h
  split at h
  · rename_i ht
    cases h; exact .floating ht
  · rename_i ht
    cases hl : j.limits with
    | none => rw [hl] at h; cases h
    | some l => rw [hl] at h; cases h; exact .revolute ht hl (alignedOr_spec C _ _ _)
  · rename_i ht
    cases hl : j.limits with
    | none =>
      rw [hl] at h; cases h
      have := UJoint.Says.continuous (C := C) ht (alignedOr_spec C C.cont C.contU j.axis)
      rw [hl] at this; exact this
    | some l =>
      rw [hl] at h; cases h
      have := UJoint.Says.continuous (C := C) ht (alignedOr_spec C C.cont C.contU j.axis)
      rw [hl] at this; exact this
  · rename_i ht
    cases hl : j.limits with
    | none => rw [hl] at h; cases h
    | some l => rw [hl] at h; cases h; exact .prismatic ht hl (alignedOr_spec C _ _ _)
  · rename_i ht
    cases h; exact .planar ht
  · cases h

theorem isMimic_iff {mimic : Bool} {j : UJoint K} {x : String × K × K} : urdfIsMimic mimic j = some x ↔ j.Follows mimic x := by
  unfold urdfIsMimic UJoint.Follows
  cases mimic <;> simp

end Model
end Pin
