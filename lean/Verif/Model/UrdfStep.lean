import Verif.Model.UrdfLemmas
import Verif.Model.ReduceReach

/-! # What reading one link, and a tree of links, does to the model -/

set_option linter.unusedSectionVars false
set_option linter.unusedSimpArgs false

namespace Pin
namespace Model
variable {K P : Type*} [Field K] [LinearOrder K] [HasEps K]

/-! ## reachability -/

theorem reach_pushFrame {p0 : P} {m : Model K P} (h : Reach p0 m) {f : Frame K} (h1 : f.parentJoint < m.njoints)
    (h2 : m.existFrame f.name f.type = false) : Reach p0 (m.pushFrame f) :=
  .step (op := .addFrame f true) h trivial (by simp only [step]; rw [addFrame_fresh h1 h2]; rfl)

theorem reach_addB {p0 : P} {m : Model K P} (h : Reach p0 m) (Y : Inertia K) {j : ℕ} (p : SE3 K) (hj : j < m.njoints) :
    Reach p0 (m.addB Y j p) := by
  unfold addB
  split
  · refine .step (op := .appendBody j Y p) h trivial ?_
    simp only [step]
    unfold appendBodyToJoint
    rw [if_neg (not_not.2 (by rw [h.inv.lens.inertias]; exact hj))]
    rfl
  · exact h

/-! ## inertias -/

section inertia
variable [IsStrictOrderedRing K]

/-- every joint keeps its inertia, increased by `F i`, and its mass, increased by `G i` -/
def InSum (m m' : Model K P) (F : ℕ → M6 K) (G : ℕ → K) : Prop :=
  ∀ i, MassFine (m.inertias.getD i 0).mass → (m'.inertias.getD i 0).matrix = (m.inertias.getD i 0).matrix + F i ∧
    (m'.inertias.getD i 0).mass = (m.inertias.getD i 0).mass + G i ∧ MassFine (m'.inertias.getD i 0).mass

theorem InSum.trans {a b c : Model K P} {F F' : ℕ → M6 K} {G G' : ℕ → K} (h : InSum a b F G) (g : InSum b c F' G') :
    InSum a c (fun i => F i + F' i) (fun i => G i + G' i) := by
  intro i hi
  obtain ⟨h1, h2, h3⟩ := h i hi
  obtain ⟨g1, g2, g3⟩ := g i h3
  exact ⟨by rw [g1, h1]; exact add_assoc .., by rw [g2, h2]; exact add_assoc .., g3⟩

theorem InSum.congr {a b : Model K P} {F F' : ℕ → M6 K} {G G' : ℕ → K} (h : InSum a b F G) (e : ∀ i, F i = F' i)
    (e' : ∀ i, G i = G' i) : InSum a b F' G' := by
  intro i hi
  rw [← e, ← e']; exact h i hi

theorem insum_modify {m m' : Model K P} {j : ℕ} {X : Inertia K} (hj : j < m.inertias.length) (hX : MassFine X.mass)
    (h : m'.inertias = m.inertias.modify j (fun Y => Y + X)) :
    InSum m m' (fun i => if j = i then X.matrix else 0) (fun i => if j = i then X.mass else 0) := by
  intro i hi
  rw [h]
  by_cases hlt : i < m.inertias.length
  · rw [getD_modify _ _ _ _ _ hlt]
    by_cases hji : j = i
    · simp only [hji, if_true]
      obtain ⟨a, b⟩ := fine_add hi hX
      exact ⟨a, b, by rw [b]; exact hi.add hX⟩
    · simp only [hji, if_false, add_zero]
      exact ⟨trivial, trivial, hi⟩
  · have hji : j ≠ i := by omega
    have e : (m.inertias.modify j (fun Y => Y + X)).getD i 0 = m.inertias.getD i 0 := by
      rw [List.getD_eq_default _ _ (by simpa using hlt), List.getD_eq_default _ _ (by simpa using hlt)]
    rw [e]
    simp only [hji, if_false, add_zero]
    exact ⟨trivial, trivial, hi⟩

theorem insum_push {m : Model K P} {f : Frame K} (hj : f.parentJoint < m.inertias.length) (hX : MassFine f.inertia.mass) :
    InSum m (m.pushFrame f) (fun i => if f.parentJoint = i then (f.inertia.act f.placement).matrix else 0)
      (fun i => if f.parentJoint = i then f.inertia.mass else 0) :=
  insum_modify (X := f.inertia.act f.placement) hj hX rfl

theorem insum_push_zero {m : Model K P} {f : Frame K} (hj : f.parentJoint < m.inertias.length) (h0 : f.inertia = 0) :
    InSum m (m.pushFrame f) (fun _ => 0) (fun _ => 0) := by
  have hz := zero_act f.placement
  refine (insum_push hj (by rw [h0]; exact massFine_zero)).congr (fun i => ?_) (fun i => ?_)
  · rw [h0, hz.1, ite_self]
  · rw [h0]; exact ite_self _

theorem insum_addB {m : Model K P} {j : ℕ} (hj : j < m.inertias.length) {Y : Inertia K} (hY : MassFine Y.mass) (p : SE3 K) :
    InSum m (m.addB Y j p) (fun i => if j = i then (Y.act p).matrix else 0) (fun i => if j = i then Y.mass else 0) := by
  unfold addB
  split
  · exact insum_modify (X := Y.act p) hj hY rfl
  · rename_i h
    rw [not_not] at h
    subst h
    have hz := zero_act p
    intro i hi
    rw [hz.1]
    refine ⟨by simp, ?_, hi⟩
    have : (0 : Inertia K).mass = 0 := rfl
    rw [this]; simp

theorem insum_added {m m' : Model K P} {a : JointArgs K P} {e : JEntry P} (ad : Added m a e m') :
    InSum m m' (fun _ => 0) (fun _ => 0) := by
  intro i hi
  have : m'.inertias.getD i 0 = m.inertias.getD i 0 := by
    rw [ad.inertias]
    rcases Nat.lt_trichotomy i m.inertias.length with h | h | h
    · exact getD_append_lt _ _ _ h
    · rw [getD_append_eq _ _ _ h, List.getD_eq_default _ _ (by omega)]
    · rw [List.getD_eq_default _ _ (by simp; omega), List.getD_eq_default _ _ (by omega)]
  rw [this]
  exact ⟨by simp, by simp, hi⟩

end inertia

/-! ## one link -/

theorem addJoint_entry {m m' : Model K P} {a : JointArgs K P} {id : ℕ} (h : m.addJoint a = .ok m' id) :
    ∃ e, a.joint.setIndexes m.njoints m.nq m.nv m.nvx = some e ∧ m'.joints = m.joints ++ [e] := by
  unfold addJoint at h
  cases hset : a.joint.setIndexes m.njoints m.nq m.nv m.nvx with
  | none =>
    simp only [hset] at h
    (repeat' split at h) <;> cases h
  | some e =>
    simp only [hset] at h
    (repeat' split at h) <;> cases h <;> exact ⟨e, rfl, rfl⟩

/-- what reading one link does -/
structure LinkStep (C : JColl K P) (mimic : Bool) (m m' : Model K P) (p : String) (j : UJoint K) (c : String) (Y : Inertia K) :
    Prop where
  reach : ∀ p0, Reach p0 m → Reach p0 m'
  ext : Ext m m'
  names : m'.names = m.names ++ if j.type = .fixed then [] else [j.name]
  edge : EdgeOk C mimic m' p j c
  frames : ∃ jf bf, m'.frames = m.frames ++ [jf, bf] ∧ jf.name = j.name ∧ (jf.type = JOINT ∨ jf.type = FIXED_JOINT) ∧
    bf.name = c ∧ bf.type = BODY ∧ m'.link c = some bf ∧ (∀ [IsStrictOrderedRing K], MassFine Y.mass →
      InSum m m' (fun i => if bf.parentJoint = i then (Y.act bf.placement).matrix else 0)
        (fun i => if bf.parentJoint = i then Y.mass else 0))

theorem link_new {m m' : Model K P} {jf bf : Frame K} {c : String} (d : FramesDistinct m'.frames)
    (hf : m'.frames = m.frames ++ [jf, bf]) (hc : m.existFrame c BODY = false) (hj : jf.type = JOINT ∨ jf.type = FIXED_JOINT)
    (hb : bf.type = BODY) (hn : bf.name = c) : m'.link c = some bf := by
  rw [link_eq d, hf, List.find?_append]
  have h1 : m.frames.find? (filterFrame c BODY) = none := by
    rw [List.find?_eq_none]
    unfold existFrame at hc
    rw [List.any_eq_false] at hc
    intro x hx
    exact hc x hx
  have h2 : filterFrame c BODY jf = false := by
    apply filter_ne
    left
    rcases hj with e | e <;> rw [e] <;> rfl
  have h3 : filterFrame c BODY bf = true := by
    unfold filterFrame
    rw [hb, hn]
    simp [BODY]
  rw [h1, Option.none_or, List.find?_cons, h2]
  simp only [List.find?_cons, h3]

/-- adding a joint, its frame and the body on it -/
theorem add_step {p0 : P} {m : Model K P} (hr : Reach p0 m) {a : JointArgs K P}
    (hok : OpOk m (.addJoint a)) {pid : ℕ} {Y : Inertia K} {c : String}
    (hn : m.existFrame a.name JOINT = false) (hb : m.existFrame c BODY = false) :
    (¬ ArgsOk m a ∧ m.urdfAddJoint a pid Y c = .throw m) ∨
    (ArgsOk m a ∧ ∃ m1 e m', m.addJoint a = .ok m1 m.njoints ∧ Added m a e m1 ∧ m.urdfAddJoint a pid Y c = .ok m' () ∧
      (∀ p0, Reach p0 m → Reach p0 m') ∧ Ext m1 m' ∧ Ext m m' ∧ m'.names = m.names ++ [a.name] ∧
      m'.frames = m.frames ++ [m.jframe a.name pid, m.bframe c] ∧ m'.link c = some (m.bframe c) ∧
      m'.names[m.njoints]? = some a.name ∧ m'.parents[m.njoints]? = some a.parent ∧
      m'.jointPlacements[m.njoints]? = some a.placement ∧
      (∀ [IsStrictOrderedRing K], MassFine Y.mass →
        InSum m m' (fun i => if (m.bframe c).parentJoint = i then (Y.act (m.bframe c).placement).matrix else 0)
          (fun i => if (m.bframe c).parentJoint = i then Y.mass else 0))) := by
  have hi := hr.inv
  have hl := hi.lens
  rcases urdfAddJoint_fresh hi hok (pid := pid) (Y := Y) (body := c) hn hb with h | ⟨hA, e, m1, he, ad, hrun⟩
  · exact Or.inl h
  right
  have i1 := inv_added hi hA hok ad
  have r1 : ∀ p0, Reach p0 m → Reach p0 m1 := fun q h =>
    .step (op := .addJoint a) h hok (by simp only [step]; rw [he]; rfl)
  set m2 := m1.pushFrame (m.jframe a.name pid) with hm2
  set m3 := m2.addB Y m.njoints ((1 : SE3 K) * 1) with hm3
  have hj2 : m.njoints < m1.njoints := by rw [ad.njoints]; omega
  have ex1 : m1.existFrame a.name JOINT = false := by
    rw [existFrame_ext m [] a.name JOINT (by rw [ad.frames]; simp), hn]; rfl
  have r2 : ∀ p0, Reach p0 m → Reach p0 m2 := fun q h => reach_pushFrame (r1 q h) hj2 ex1
  obtain ⟨b1, b2, b3, b4⟩ := addB_fields m2 Y m.njoints ((1 : SE3 K) * 1)
  have n2 : m2.njoints = m1.njoints := rfl
  have r3 : ∀ p0, Reach p0 m → Reach p0 m3 := fun q h => reach_addB (r2 q h) Y _ (by rw [n2]; exact hj2)
  have f2 : m2.frames = m.frames ++ [m.jframe a.name pid] := by rw [hm2]; unfold pushFrame; rw [ad.frames]
  have f3 : m3.frames = m.frames ++ [m.jframe a.name pid] := b1.trans f2
  have n3 : m3.njoints = m1.njoints := b2.trans n2
  have ex3 : m3.existFrame c BODY = false := by
    rw [existFrame_ext m [m.jframe a.name pid] c BODY f3, hb]
    simp [filterFrame, jframe, BODY, JOINT]
  have r4 : ∀ p0, Reach p0 m → Reach p0 (m3.pushFrame (m.bframe c)) := fun q h =>
    reach_pushFrame (r3 q h) (by rw [n3]; exact hj2) ex3
  have hres : m.jointAdded m1 a.name pid Y c = m3.pushFrame (m.bframe c) := rfl
  have f4 : (m3.pushFrame (m.bframe c)).frames = m.frames ++ [m.jframe a.name pid, m.bframe c] := by
    unfold pushFrame
    dsimp only
    rw [f3, List.append_assoc]; rfl
  have d4 := (r4 p0 hr).framesDistinct
  have x34 : Ext m1 (m3.pushFrame (m.bframe c)) :=
    ((ext_pushFrame m1 _).trans (ext_addB m2 Y _ _)).trans (ext_pushFrame m3 _)
  have x4 : Ext m (m3.pushFrame (m.bframe c)) := (ext_added ad).trans x34
  have l4 : (m3.pushFrame (m.bframe c)).link c = some (m.bframe c) :=
    link_new d4 f4 hb (Or.inl rfl) rfl rfl
  have nm3 : m3.names = m1.names := by
    rw [hm3]; unfold addB; split <;> rfl
  refine ⟨hA, m1, e, _, he, ad, hrun, r4, x34, x4, ?_, f4, l4, ?_, ?_, ?_, ?_⟩
  · change m3.names = _
    rw [nm3, ad.names]
  · apply prefix_get x34.names
    rw [ad.names, ← hl.names]; simp
  · apply prefix_get x34.parents
    rw [ad.parents, ← hl.parents]; simp
  · apply prefix_get x34.jointPlacements
    rw [ad.jointPlacements, ← hl.jointPlacements]; simp
  · intro _ hY
    have s1 := insum_added ad
    have s2 : InSum m1 m2 _ _ := insum_push_zero (f := m.jframe a.name pid) (by rw [i1.lens.inertias]; exact hj2) rfl
    have hlen2 : m2.inertias.length = m1.njoints := by
      rw [hm2]; unfold pushFrame; simp [i1.lens.inertias]
    have s3 : InSum m2 m3 _ _ := insum_addB (by rw [hlen2]; exact hj2) hY ((1 : SE3 K) * 1)
    have s4 : InSum m3 (m3.pushFrame (m.bframe c)) _ _ := insum_push_zero (f := m.bframe c)
      (by rw [b4, hlen2]; exact hj2) rfl
    refine (((s1.trans s2).trans s3).trans s4).congr (fun i => ?_) (fun i => ?_)
    · simp only [zero_add, add_zero]; rfl
    · simp only [zero_add, add_zero]; rfl

/-- the part of the step common to all movable joints -/
theorem joint_step {p0 : P} (C : JColl K P) (mimic : Bool) {m : Model K P} (hr : Reach p0 m) {a : JointArgs K P}
    (hok : OpOk m (.addJoint a)) {pid : ℕ} {Y : Inertia K} {p c : String} {j : UJoint K} {fp : Frame K}
    (hp : m.link p = some fp) (hpar : a.parent = fp.parentJoint) (hpl : a.placement = fp.placement * j.origin.conv)
    (hname : a.name = j.name) (hn : m.existFrame j.name JOINT = false) (hb : m.existFrame c BODY = false)
    (hfix : j.type ≠ .fixed)
    (hkind : ∀ m1 e, Added m a e m1 → m.addJoint a = .ok m1 m.njoints →
      ((∃ x, j.Follows mimic x ∧ HasMimic C m1 m.njoints j x) ∨
        ((∀ x, ¬ j.Follows mimic x) ∧ ∃ u, j.Says C u ∧ HasJoint m1 m.njoints u))) :
    (¬ ArgsOk m a ∧ m.urdfAddJoint a pid Y c = .throw m) ∨
    (ArgsOk m a ∧ ∃ m', m.urdfAddJoint a pid Y c = .ok m' () ∧ LinkStep C mimic m m' p j c Y) := by
  have hl := hr.inv.lens
  rcases add_step hr hok (pid := pid) (Y := Y) (c := c) (by rw [hname]; exact hn) hb with
    h | ⟨hA, m1, e, m', he, ad, hrun, r4, x34, x4, nm, f4, l4, g1, g2, g3, hsum⟩
  · exact Or.inl h
  refine Or.inr ⟨hA, m', hrun, r4, x4, ?_, ?_, ⟨_, _, f4, hname, Or.inl rfl, rfl, rfl, l4, hsum⟩⟩
  · rw [if_neg hfix, nm, hname]
  · refine ⟨fp, m.bframe c, x4.link hr.framesDistinct (r4 p0 hr).framesDistinct hp, l4, ?_⟩
    rw [if_neg hfix]
    refine ⟨by change (1 : SE3 K) * 1 = 1; exact SE3.mul_one 1, hl.pos, ?_, ?_, ?_, ?_⟩
    · rw [← hname]; exact g1
    · rw [← hpar]; exact g2
    · rw [← hpl]; exact g3
    · rcases hkind m1 e ad he with ⟨x, c1, c2⟩ | ⟨c1, u, c2, c3⟩
      · exact Or.inl ⟨x, c1, c2.ext x34⟩
      · exact Or.inr ⟨c1, u, c2, c3.ext x34 (says_lengths c2)⟩

theorem fixed_step {p0 : P} (C : JColl K P) (mimic : Bool) {m : Model K P} (hr : Reach p0 m) {pid : ℕ} {Y : Inertia K}
    {p c : String} {j : UJoint K} {fp : Frame K} (hp : m.link p = some fp) (hpid : m.frames[pid]? = some fp)
    (hn : m.existFrame j.name FIXED_JOINT = false) (hb : m.existFrame c BODY = false) (hfix : j.type = .fixed) :
    ∃ m', m.urdfAddFixed pid j.origin.conv j.name Y c = .ok m' () ∧ LinkStep C mimic m m' p j c Y := by
  have hi := hr.inv
  have hl := hi.lens
  have hj : fp.parentJoint < m.njoints := hr.base.fpar fp (List.mem_of_getElem? hpid)
  refine ⟨_, urdfAddFixed_fresh hi j.origin.conv Y hpid hj hn hb, ?_⟩
  set m2 := m.pushFrame (fframe fp pid j.origin.conv j.name Y) with hm2
  have r2 : ∀ p0, Reach p0 m → Reach p0 m2 := fun q h => reach_pushFrame h hj hn
  have f2 : m2.frames = m.frames ++ [fframe fp pid j.origin.conv j.name Y] := rfl
  have ex2 : m2.existFrame c BODY = false := by
    rw [existFrame_ext m _ c BODY f2, hb]
    simp [filterFrame, fframe, BODY, FIXED_JOINT]
  have r3 : ∀ p0, Reach p0 m → Reach p0 (m2.pushFrame (m.fbframe fp j.origin.conv c)) := fun q h =>
    reach_pushFrame (r2 q h) hj ex2
  have f3 : (m2.pushFrame (m.fbframe fp j.origin.conv c)).frames =
      m.frames ++ [fframe fp pid j.origin.conv j.name Y, m.fbframe fp j.origin.conv c] := by
    change m2.frames ++ _ = _
    rw [f2, List.append_assoc]; rfl
  have d3 := (r3 p0 hr).framesDistinct
  have x3 : Ext m (m2.pushFrame (m.fbframe fp j.origin.conv c)) := (ext_pushFrame m _).trans (ext_pushFrame m2 _)
  have l3 : (m2.pushFrame (m.fbframe fp j.origin.conv c)).link c = some (m.fbframe fp j.origin.conv c) :=
    link_new d3 f3 hb (Or.inr rfl) rfl rfl
  refine ⟨r3, x3, ?_, ?_, ⟨_, _, f3, rfl, Or.inr rfl, rfl, rfl, l3, ?_⟩⟩
  · rw [if_pos hfix, List.append_nil]; rfl
  · refine ⟨fp, _, x3.link hr.framesDistinct d3 hp, l3, ?_⟩
    rw [if_pos hfix]
    exact ⟨rfl, rfl⟩
  · intro _ hY
    have s1 : InSum m m2 _ _ := insum_push (f := fframe fp pid j.origin.conv j.name Y)
      (by rw [hl.inertias]; exact hj) hY
    have s2 : InSum m2 (m2.pushFrame (m.fbframe fp j.origin.conv c)) _ _ := insum_push_zero (f := m.fbframe fp j.origin.conv c)
      (by rw [hm2]; unfold pushFrame; simp only [List.length_modify]; rw [hl.inertias]; exact hj) rfl
    refine (s1.trans s2).congr (fun i => ?_) (fun i => ?_)
    · simp only [add_zero]; rfl
    · simp only [add_zero]; rfl

theorem getJointId_spec {m : Model K P} {n : String} (h : m.existJointName n = true) : m.names[m.getJointId n]? = some n := by
  unfold existJointName at h
  unfold getJointId
  rw [List.any_eq_true] at h
  obtain ⟨x, hx, hxn⟩ := h
  have hlt : m.names.findIdx (· == n) < m.names.length := List.findIdx_lt_length_of_exists ⟨x, hx, hxn⟩
  rw [List.getElem?_eq_getElem hlt]
  have := List.findIdx_getElem (p := (· == n)) (w := hlt)
  rw [beq_iff_eq] at this
  rw [this]

theorem mimic_entry {C : JColl K P} {m : Model K P} (hi : Inv m) {pl : P} {x : String × K × K} :
    (m.existJointName x.1 = false ∧ urdfMimicDesc C m pl x = none) ∨
    ∃ k e', k < m.njoints ∧ m.names[k]? = some x.1 ∧ m.joints[k]? = some e' ∧
      urdfMimicDesc C m pl x = some (some ⟨C.mimic pl x.2.1 x.2.2, 0, 0, 1, some (k, e'.idx_q, e'.idx_v)⟩) := by
  unfold urdfMimicDesc
  cases hex : m.existJointName x.1 with
  | false => left; exact ⟨rfl, rfl⟩
  | true =>
    right
    have hk := getJointId_spec hex
    have hlt : m.getJointId x.1 < m.names.length := by
      by_contra hc
      rw [List.getElem?_eq_none (by omega)] at hk; cases hk
    have hlt' : m.getJointId x.1 < m.joints.length := by rw [hi.lens.joints, ← hi.lens.names]; exact hlt
    have he : m.joints[m.getJointId x.1]? = some m.joints[m.getJointId x.1] := List.getElem?_eq_getElem hlt'
    refine ⟨m.getJointId x.1, _, by rw [← hi.lens.names]; exact hlt, hk, he, ?_⟩
    rw [if_pos rfl, he]
    simp only [Option.map_some]
    rw [(hi.ent _ _ he).1]

theorem alignedOr0_spec (al : Fin 3 → P) (un : P) (a : V3 K) (hu : ∀ i k, a.Near (unitAxis i) → a.Near (unitAxis k) → i = k)
    (i : Fin 3) (h : a.Near (unitAxis i)) : alignedOr0 al un a = al i := by
  unfold alignedOr0
  cases hx : extractCartesianAxis a with
  | some k => rw [hu k i ((extract_spec a).1 k hx) h]
  | none => exact absurd h ((extract_spec a).2 hx i)

theorem near_unique [IsStrictOrderedRing K] (a : V3 K) (i k : Fin 3) (h : a.Near (unitAxis i)) (g : a.Near (unitAxis k)) : i = k := by
  obtain ⟨x, y, z⟩ := a
  unfold V3.Near at h g
  have key : ∀ s t u : K, s * s + t * t + u * u ≤ (1 / 10 ^ 12) ^ 2 * 1 → s * s ≤ 1 / 8 ∧ t * t ≤ 1 / 8 ∧ u * u ≤ 1 / 8 := by
    intro s t u hs
    have h1 := mul_self_nonneg s
    have h2 := mul_self_nonneg t
    have h3 := mul_self_nonneg u
    norm_num at hs
    refine ⟨?_, ?_, ?_⟩ <;> linarith
  have bound : ∀ (r : K) (i : Fin 3), min r ((unitAxis (K := K) i).x * (unitAxis i).x + (unitAxis (K := K) i).y * (unitAxis i).y
      + (unitAxis (K := K) i).z * (unitAxis i).z) ≤ 1 := by
    intro r i
    refine (min_le_right _ _).trans ?_
    match i with
    | 0 => simp [unitAxis]
    | 1 => simp [unitAxis]
    | 2 => simp [unitAxis]
  have hh := key _ _ _ (h.trans (mul_le_mul_of_nonneg_left (bound _ i) (by positivity)))
  have gg := key _ _ _ (g.trans (mul_le_mul_of_nonneg_left (bound _ k) (by positivity)))
  have clash : ∀ t : K, (t - 1) * (t - 1) ≤ 1 / 8 → t * t ≤ 1 / 8 → False := by
    intro t h1 h2
    nlinarith [mul_self_nonneg (2 * t - 1)]
  match i, k, hh, gg with
  | 0, 0, _, _ => rfl
  | 1, 1, _, _ => rfl
  | 2, 2, _, _ => rfl
  | 0, 1, hh, gg => exact (clash x (by simpa [unitAxis] using hh.1) (by simpa [unitAxis] using gg.1)).elim
  | 0, 2, hh, gg => exact (clash x (by simpa [unitAxis] using hh.1) (by simpa [unitAxis] using gg.1)).elim
  | 1, 0, hh, gg => exact (clash x (by simpa [unitAxis] using gg.1) (by simpa [unitAxis] using hh.1)).elim
  | 2, 0, hh, gg => exact (clash x (by simpa [unitAxis] using gg.1) (by simpa [unitAxis] using hh.1)).elim
  | 1, 2, hh, gg => exact (clash y (by simpa [unitAxis] using hh.2.1) (by simpa [unitAxis] using gg.2.1)).elim
  | 2, 1, hh, gg => exact (clash y (by simpa [unitAxis] using gg.2.1) (by simpa [unitAxis] using hh.2.1)).elim

theorem says_args {C : JColl K P} {j : UJoint K} {a : UArgs K P} (h : j.Says C a) : ∃ b, urdfArgs C j = some (some b) := by
  unfold urdfArgs
  cases h with
  | revolute ht hl _ => rw [ht, hl]; exact ⟨_, rfl⟩
  | prismatic ht hl _ => rw [ht, hl]; exact ⟨_, rfl⟩
  | continuous ht _ => rw [ht]; exact ⟨_, rfl⟩
  | planar ht => rw [ht]; exact ⟨_, rfl⟩
  | floating ht => rw [ht]; exact ⟨_, rfl⟩

theorem existJointName_iff {m : Model K P} {n : String} : m.existJointName n = true ↔ n ∈ m.names := by
  unfold existJointName
  rw [List.any_eq_true]
  constructor
  · rintro ⟨x, hx, he⟩
    rw [beq_iff_eq] at he; exact he ▸ hx
  · intro h; exact ⟨n, h, by simp⟩

theorem link_cases [IsStrictOrderedRing K] {p0 : P} (C : JColl K P) (mimic : Bool) {m : Model K P} (hr : Reach p0 m) {Y : Inertia K}
    {p c : String} {j : UJoint K} {fp : Frame K} (hp : m.link p = some fp)
    (hn : m.existFrame j.name (JOINT ||| FIXED_JOINT) = false) (hb : m.existFrame c BODY = false) :
    (Supp C mimic m.names j ∧ ∃ m', urdfLink C mimic p j c Y m = .ok m' () ∧ LinkStep C mimic m m' p j c Y) ∨
    (¬ Supp C mimic m.names j ∧ ∀ m', urdfLink C mimic p j c Y m ≠ .ok m' ()) := by
  have hi := hr.inv
  have hl := hi.lens
  obtain ⟨hn1, hn2⟩ := existFrame_sub hn
  obtain ⟨pid, hpid, hfp⟩ := urdfBodyId_spec hr.framesDistinct hp
  have hfpar : fp.parentJoint < m.njoints := hr.base.fpar fp (List.mem_of_getElem? hfp)
  have hrun : urdfLink C mimic p j c Y m = if j.type = .fixed then m.urdfAddFixed pid j.origin.conv j.name Y c
      else
        match urdfIsMimic mimic j with
        | some x =>
          match urdfMimicDesc C m (if j.type = .revolute then alignedOr0 C.rev C.revU0 j.axis
              else alignedOr0 C.pris C.prisU0 j.axis) x with
          | none => .throw m
          | some none => .ub
          | some (some d) =>
            m.urdfAddJoint ⟨fp.parentJoint, d, fp.placement * j.origin.conv, j.name, [], [], [], [], [], []⟩ pid Y c
        | none =>
          match urdfArgs C j with
          | none => .throw m
          | some none => .ub
          | some (some a) =>
            m.urdfAddJoint ⟨fp.parentJoint, ⟨a.payload, a.nq, a.nv, a.nv, none⟩, fp.placement * j.origin.conv, j.name,
              a.effort, a.velocity, a.lower, a.upper, a.friction, a.damping⟩ pid Y c := by
    unfold urdfLink
    rw [hpid]
    dsimp only
    rw [hfp]
    rfl
  rw [hrun]
  by_cases hfix : j.type = .fixed
  · rw [if_pos hfix]
    exact Or.inl ⟨Or.inl hfix, fixed_step C mimic hr hp hfp hn2 hb hfix⟩
  rw [if_neg hfix]
  cases hm : urdfIsMimic mimic j with
  | some x =>
    have hfol := isMimic_iff.1 hm
    dsimp only
    rcases mimic_entry (C := C) hi (pl := if j.type = .revolute then alignedOr0 C.rev C.revU0 j.axis
        else alignedOr0 C.pris C.prisU0 j.axis) (x := x) with ⟨hex, hd⟩ | ⟨k, e', hk, hkn, hke, hd⟩
    · right
      rw [hd]
      refine ⟨?_, fun m' h => by cases h⟩
      rintro (h | ⟨y, hy, hy'⟩ | ⟨h, -⟩)
      · exact hfix h
      · obtain ⟨a1, a2, a3⟩ := hfol
        obtain ⟨b1, b2, b3⟩ := hy
        rw [a3] at b3
        cases b3
        rw [← existJointName_iff, hex] at hy'
        cases hy'
      · exact h x hfol
    · left
      rw [hd]
      dsimp only
      refine ⟨Or.inr (Or.inl ⟨x, hfol, List.mem_of_getElem? hkn⟩), ?_⟩
      set A : JointArgs K P := ⟨fp.parentJoint, ⟨C.mimic (if j.type = .revolute then alignedOr0 C.rev C.revU0 j.axis
          else alignedOr0 C.pris C.prisU0 j.axis) x.2.1 x.2.2, 0, 0, 1, some (k, e'.idx_q, e'.idx_v)⟩,
          fp.placement * j.origin.conv, j.name, [], [], [], [], [], []⟩ with hAdef
      have hkind : ∀ m1 e, Added m A e m1 → m.addJoint A = .ok m1 m.njoints →
          ((∃ x, j.Follows mimic x ∧ HasMimic C m1 m.njoints j x) ∨
            ((∀ x, ¬ j.Follows mimic x) ∧ ∃ u, j.Says C u ∧ HasJoint m1 m.njoints u)) := by
        intro m1 e ad hadd
        left
        refine ⟨x, hfol, k, e, e', _, hk, ?_, ?_, ?_, ad.desc, ?_⟩
        · rw [ad.names]; exact prefix_get (List.prefix_append _ _) hkn
        · rw [ad.joints]; exact prefix_get (List.prefix_append _ _) hke
        · rw [ad.joints, ← hl.joints]; simp
        · obtain ⟨e2, hs, hj2⟩ := addJoint_entry hadd
          rw [ad.joints] at hj2
          have : e = e2 := by simpa using hj2
          subst this
          rw [hAdef] at hs
          unfold JDesc.setIndexes at hs
          dsimp only at hs
          rw [if_pos hk] at hs
          cases hs
          refine ⟨rfl, rfl, fun a ha => ?_⟩
          by_cases ht : j.type = .revolute
          · rw [if_pos ht, if_pos ht]; exact alignedOr0_spec _ _ _ (near_unique _) a ha
          · rw [if_neg ht, if_neg ht]; exact alignedOr0_spec _ _ _ (near_unique _) a ha
      rcases joint_step C mimic hr (a := A) (pid := pid) (Y := Y) (c := c) (j := j)
        (by intro y hy; cases hy; exact ⟨rfl, rfl, hk⟩) hp rfl rfl rfl hn1 hb hfix hkind with ⟨hA, -⟩ | ⟨-, m', h1, h2⟩
      · exact absurd ⟨rfl, rfl, rfl, rfl, rfl, rfl, hfpar⟩ hA
      · exact ⟨m', h1, h2⟩
  | none =>
    have hnf : ∀ x, ¬ j.Follows mimic x := fun x hx => by
      rw [← isMimic_iff, hm] at hx; cases hx
    dsimp only
    have hno : (∀ b, urdfArgs C j ≠ some (some b)) → ¬ Supp C mimic m.names j := by
      intro h
      rintro (h1 | ⟨y, hy, -⟩ | ⟨-, a, ha⟩)
      · exact hfix h1
      · exact hnf y hy
      · obtain ⟨b, hb⟩ := says_args ha
        exact h b hb
    cases ha : urdfArgs C j with
    | none => right; exact ⟨hno (by rw [ha]; intro b h; cases h), fun m' h => by cases h⟩
    | some o =>
      cases o with
      | none => right; exact ⟨hno (by rw [ha]; intro b h; cases h), fun m' h => by cases h⟩
      | some a =>
        left
        have hsay := urdfArgs_says ha
        obtain ⟨l1, l2, l3, l4, l5, l6⟩ := says_lengths hsay
        refine ⟨Or.inr (Or.inr ⟨hnf, a, hsay⟩), ?_⟩
        dsimp only
        set A : JointArgs K P := ⟨fp.parentJoint, ⟨a.payload, a.nq, a.nv, a.nv, none⟩,
            fp.placement * j.origin.conv, j.name, a.effort, a.velocity, a.lower, a.upper, a.friction, a.damping⟩ with hAdef
        have hkind : ∀ m1 e, Added m A e m1 → m.addJoint A = .ok m1 m.njoints →
            ((∃ x, j.Follows mimic x ∧ HasMimic C m1 m.njoints j x) ∨
              ((∀ x, ¬ j.Follows mimic x) ∧ ∃ u, j.Says C u ∧ HasJoint m1 m.njoints u)) := by
          intro m1 e ad hadd
          right
          refine ⟨hnf, a, hsay, e, ?_, ad.desc, ?_⟩
          · rw [ad.joints, ← hl.joints]; simp
          · obtain ⟨q1, q2⟩ := ad.plain rfl
            refine ⟨?_, ?_, ?_, ?_, ?_, ?_⟩
            · rw [ad.effortLimit]; exact slice_end _ _ _ l1 _ (by rw [q2, hl.effortLimit])
            · rw [ad.velocityLimit]; exact slice_end _ _ _ l2 _ (by rw [q2, hl.velocityLimit])
            · rw [ad.lowerPositionLimit]; exact slice_end _ _ _ l3 _ (by rw [q1, hl.lowerPositionLimit])
            · rw [ad.upperPositionLimit]; exact slice_end _ _ _ l4 _ (by rw [q1, hl.upperPositionLimit])
            · rw [ad.friction]; exact slice_end _ _ _ l5 _ (by rw [q2, hl.friction])
            · rw [ad.damping]; exact slice_end _ _ _ l6 _ (by rw [q2, hl.damping])
        rcases joint_step C mimic hr (a := A) (pid := pid) (Y := Y) (c := c) (j := j)
          (by intro y hy; cases hy) hp rfl rfl rfl hn1 hb hfix hkind with ⟨hA, -⟩ | ⟨-, m', h1, h2⟩
        · exact absurd ⟨l1, l2, l3, l4, l5, l6, hfpar⟩ hA
        · exact ⟨m', h1, h2⟩

/-! ## a tree of links -/

theorem movNames_append (a b : List (String × UJoint K × ULink K)) : movNames (a ++ b) = movNames a ++ movNames b := by
  simp [movNames]

theorem suppL_append (C : JColl K P) (mimic : Bool) (names : List String) (a b : List (String × UJoint K × ULink K)) :
    SuppL C mimic names (a ++ b) ↔ SuppL C mimic names a ∧ SuppL C mimic (names ++ movNames a) b := by
  induction a generalizing names with
  | nil => simp [SuppL, movNames]
  | cons x l ih =>
    simp only [List.cons_append, SuppL, ih]
    have : names ++ movNames (x :: l) = names ++ (if x.2.1.type = .fixed then [] else [x.2.1.name]) ++ movNames l := by
      unfold movNames
      by_cases h : x.2.1.type = .fixed <;> simp [h]
    rw [this, and_assoc]

/-- what reading a list of joints does -/
structure TreeStep (C : JColl K P) (mimic : Bool) (m m' : Model K P) (es : List (String × UJoint K × ULink K)) : Prop where
  reach : ∀ p0, Reach p0 m → Reach p0 m'
  ext : Ext m m'
  names : m'.names = m.names ++ movNames es
  edges : ∀ x ∈ es, EdgeOk C mimic m' x.1 x.2.1 x.2.2.name
  frames : ∃ l, m'.frames = m.frames ++ l ∧ ∀ f ∈ l, (f.type = BODY ∧ f.name ∈ es.map (·.2.2.name)) ∨
    ((f.type = JOINT ∨ f.type = FIXED_JOINT) ∧ f.name ∈ es.map (·.2.1.name))
  inertia : ∀ [IsStrictOrderedRing K], (∀ x ∈ es, MassFine (convInertial x.2.2.inertial).mass) →
    InSum m m' (fun i => (es.map fun x => contrib m' i x.2.2).sum) (fun i => (es.map fun x => contribMass m' i x.2.2).sum)

theorem TreeStep.nil (C : JColl K P) (mimic : Bool) (m : Model K P) : TreeStep C mimic m m [] := by
  refine ⟨fun _ h => h, .refl m, by simp [movNames], by simp, ⟨[], by simp, by simp⟩, fun _ i hi => ?_⟩
  exact ⟨by simp, by simp, hi⟩

theorem contrib_ext {m m' : Model K P} (h : Ext m m') (d : FramesDistinct m.frames) (d' : FramesDistinct m'.frames) {l : ULink K} {f : Frame K}
    (hl : m.link l.name = some f) (i : ℕ) : contrib m' i l = contrib m i l ∧ contribMass m' i l = contribMass m i l := by
  have hl' := h.link d d' hl
  unfold contrib contribMass
  rw [hl, hl']
  exact ⟨rfl, rfl⟩

theorem TreeStep.append {p0 : P} {C : JColl K P} {mimic : Bool} {m m1 m2 : Model K P} {a b : List (String × UJoint K × ULink K)}
    (hr : Reach p0 m) (h : TreeStep C mimic m m1 a) (g : TreeStep C mimic m1 m2 b) : TreeStep C mimic m m2 (a ++ b) := by
  have d1 := (h.reach _ hr).framesDistinct
  have d2 := (g.reach _ (h.reach _ hr)).framesDistinct
  refine ⟨fun p h' => g.reach p (h.reach p h'), h.ext.trans g.ext, ?_, ?_, ?_, ?_⟩
  · rw [g.names, h.names, movNames_append, List.append_assoc]
  · intro x hx
    rcases List.mem_append.1 hx with hx | hx
    · exact (h.edges x hx).ext g.ext d1 d2
    · exact g.edges x hx
  · obtain ⟨l, e1, e2⟩ := h.frames
    obtain ⟨l', e1', e2'⟩ := g.frames
    refine ⟨l ++ l', by rw [e1', e1, List.append_assoc], fun f hf => ?_⟩
    simp only [List.map_append, List.mem_append]
    rcases List.mem_append.1 hf with hf | hf
    · rcases e2 f hf with ⟨c1, c2⟩ | ⟨c1, c2⟩
      · exact Or.inl ⟨c1, Or.inl c2⟩
      · exact Or.inr ⟨c1, Or.inl c2⟩
    · rcases e2' f hf with ⟨c1, c2⟩ | ⟨c1, c2⟩
      · exact Or.inl ⟨c1, Or.inr c2⟩
      · exact Or.inr ⟨c1, Or.inr c2⟩
  · intro _ hY
    have s1 := h.inertia (fun x hx => hY x (List.mem_append_left _ hx))
    have s2 := g.inertia (fun x hx => hY x (List.mem_append_right _ hx))
    have e : ∀ i, ∀ x ∈ a, contrib m2 i x.2.2 = contrib m1 i x.2.2 ∧ contribMass m2 i x.2.2 = contribMass m1 i x.2.2 := by
      intro i x hx
      obtain ⟨fp, fc, -, hc, -⟩ := h.edges x hx
      exact contrib_ext g.ext d1 d2 hc i
    refine (s1.trans s2).congr (fun i => ?_) (fun i => ?_)
    · rw [List.map_append, List.sum_append]
      congr 2
      exact List.map_congr_left (fun x hx => ((e i x hx).1).symm)
    · rw [List.map_append, List.sum_append]
      congr 2
      exact List.map_congr_left (fun x hx => ((e i x hx).2).symm)

theorem LinkStep.tree {C : JColl K P} {mimic : Bool} {m m' : Model K P} {p : String} {j : UJoint K} {c : ULink K}
    (h : LinkStep C mimic m m' p j c.name (convInertial c.inertial)) : TreeStep C mimic m m' [(p, j, c)] := by
  obtain ⟨jf, bf, e1, e2, e3, e4, e5, e6, e7⟩ := h.frames
  refine ⟨h.reach, h.ext, ?_, ?_, ⟨_, e1, ?_⟩, ?_⟩
  · rw [h.names]
    unfold movNames
    by_cases hf : j.type = .fixed <;> simp [hf]
  · intro x hx
    rw [List.mem_singleton] at hx
    subst hx
    exact h.edge
  · intro f hf
    simp only [List.mem_cons, List.not_mem_nil, or_false] at hf
    rcases hf with rfl | rfl
    · exact Or.inr ⟨e3, by simp [e2]⟩
    · exact Or.inl ⟨e5, by simp [e4]⟩
  · intro _ hY
    refine (e7 (hY (p, j, c) (by simp))).congr (fun i => ?_) (fun i => ?_)
    · simp [contrib, e6]
    · simp [contribMass, e6]

theorem Fresh.left {m : Model K P} {a b : List (String × UJoint K × ULink K)} (h : Fresh m (a ++ b)) : Fresh m a := by
  obtain ⟨h1, h2, h3, h4⟩ := h
  rw [List.map_append] at h1 h2
  exact ⟨h1.of_append_left, h2.of_append_left, fun x hx => h3 x (List.mem_append_left _ hx),
    fun x hx => h4 x (List.mem_append_left _ hx)⟩

theorem Fresh.right {C : JColl K P} {mimic : Bool} {m m1 : Model K P} {a b : List (String × UJoint K × ULink K)} (h : Fresh m (a ++ b))
    (g : TreeStep C mimic m m1 a) : Fresh m1 b := by
  obtain ⟨h1, h2, h3, h4⟩ := h
  rw [List.map_append] at h1 h2
  obtain ⟨l, e1, e2⟩ := g.frames
  refine ⟨h1.of_append_right, h2.of_append_right, fun x hx => ?_, fun x hx => ?_⟩
  · rw [existFrame_ext m l _ _ e1, h3 x (List.mem_append_right _ hx), Bool.false_or, List.any_eq_false]
    intro f hf
    rw [Bool.not_eq_true]
    apply filter_ne
    rcases e2 f hf with ⟨c1, c2⟩ | ⟨c1, c2⟩
    · right
      intro hh
      rw [← hh] at c2
      exact (List.disjoint_of_nodup_append h1) c2 (List.mem_map_of_mem hx)
    · left
      rcases c1 with c | c <;> rw [c] <;> rfl
  · rw [existFrame_ext m l _ _ e1, h4 x (List.mem_append_right _ hx), Bool.false_or, List.any_eq_false]
    intro f hf
    rw [Bool.not_eq_true]
    apply filter_ne
    rcases e2 f hf with ⟨c1, c2⟩ | ⟨c1, c2⟩
    · left
      rw [c1]; rfl
    · right
      intro hh
      rw [← hh] at c2
      exact (List.disjoint_of_nodup_append h2) c2 (List.mem_map_of_mem hx)

theorem bind_ok {S A B : Type*} {s : S} {a : A} (f : S → A → Res S B) : (Res.ok s a).bind f = f s a := rfl

theorem bind_not_ok {S A B : Type*} {r : Res S A} (f : S → A → Res S B) (h : ∀ s a, r ≠ .ok s a) : ∀ s b, r.bind f ≠ .ok s b := by
  intro s b hb
  cases r with
  | ok s a => exact h s a rfl
  | throw s => cases hb
  | ub => cases hb

/-- outcome of a part of the reading -/
def Outcome (C : JColl K P) (mimic : Bool) (m : Model K P) (r : Res (Model K P) Unit) (es : List (String × UJoint K × ULink K)) : Prop :=
  (SuppL C mimic m.names es ∧ ∃ m', r = .ok m' () ∧ TreeStep C mimic m m' es) ∨
    (¬ SuppL C mimic m.names es ∧ ∀ m', r ≠ .ok m' ())

theorem Outcome.bind {p0 : P} {C : JColl K P} {mimic : Bool} {m : Model K P} (hr : Reach p0 m) {r : Res (Model K P) Unit}
    {f : Model K P → Unit → Res (Model K P) Unit} {a b : List (String × UJoint K × ULink K)} (h : Outcome C mimic m r a)
    (g : ∀ m1, TreeStep C mimic m m1 a → Outcome C mimic m1 (f m1 ()) b) : Outcome C mimic m (r.bind f) (a ++ b) := by
  unfold Outcome
  rw [suppL_append]
  rcases h with ⟨h1, m1, h2, h3⟩ | ⟨h1, h2⟩
  · rw [h2, bind_ok]
    have := g m1 h3
    unfold Outcome at this
    rw [h3.names] at this
    rcases this with ⟨g1, m2, g2, g3⟩ | ⟨g1, g2⟩
    · exact Or.inl ⟨⟨h1, g1⟩, m2, g2, h3.append hr g3⟩
    · exact Or.inr ⟨fun hh => g1 hh.2, g2⟩
  · exact Or.inr ⟨fun hh => h1 hh.1, fun m' => bind_not_ok f (fun s _ => h2 s) m' ()⟩

variable [IsStrictOrderedRing K]

mutual
theorem parseTree_outcome {p0 : P} (C : JColl K P) (mimic : Bool) : ∀ (t : ULink K) (p : String) (j : UJoint K) (m : Model K P) (fp : Frame K),
    Reach p0 m → m.link p = some fp → Fresh m ((p, j, t) :: t.edges) →
    Outcome C mimic m (parseTree C mimic p j t m) ((p, j, t) :: t.edges)
  | .node n Y cs, p, j, m, fp, hr, hp, hf => by
    have e : ((p, j, .node n Y cs) :: (ULink.node n Y cs).edges) = [(p, j, .node n Y cs)] ++ forestEdges n cs := by
      rw [ULink.edges]; rfl
    rw [e] at hf ⊢
    rw [parseTree]
    refine Outcome.bind hr ?_ (fun m1 h1 => ?_)
    · have hx := hf.left
      rcases link_cases C mimic hr (Y := convInertial Y) (c := n) (j := j) hp (hx.joint (p, j, .node n Y cs) (by simp)) (hx.link (p, j, .node n Y cs) (by simp)) with
        ⟨a1, m', a2, a3⟩ | ⟨a1, a2⟩
      · exact Or.inl ⟨⟨a1, trivial⟩, m', a2, LinkStep.tree (c := .node n Y cs) a3⟩
      · exact Or.inr ⟨fun hh => a1 hh.1, a2⟩
    · obtain ⟨-, fc, -, hc, -⟩ := h1.edges (p, j, .node n Y cs) (by simp)
      exact parseChildren_outcome C mimic cs n m1 fc (h1.reach _ hr) hc (hf.right h1)
theorem parseChildren_outcome {p0 : P} (C : JColl K P) (mimic : Bool) : ∀ (cs : List (UJoint K × ULink K)) (n : String) (m : Model K P) (fp : Frame K),
    Reach p0 m → m.link n = some fp → Fresh m (forestEdges n cs) →
    Outcome C mimic m (parseChildren C mimic n cs m) (forestEdges n cs)
  | [], n, m, fp, hr, hp, hf => by
    rw [forestEdges, parseChildren]
    exact Or.inl ⟨trivial, m, rfl, .nil C mimic m⟩
  | (j, c) :: l, n, m, fp, hr, hp, hf => by
    have e : forestEdges n ((j, c) :: l) = ((n, j, c) :: c.edges) ++ forestEdges n l := by rw [forestEdges]; rfl
    rw [e] at hf ⊢
    rw [parseChildren]
    refine Outcome.bind hr (parseTree_outcome C mimic c n j m fp hr hp hf.left) (fun m1 h1 => ?_)
    exact parseChildren_outcome C mimic l n m1 fp (h1.reach _ hr) (h1.ext.link hr.framesDistinct (h1.reach _ hr).framesDistinct hp) (hf.right h1)
end

/-! ## the root link and the whole description -/

/-- what reading the root link does -/
structure RootStep (C : JColl K P) (root : Option (JDesc P × String)) (m m' : Model K P) (t : ULink K) : Prop where
  reach : ∀ p0, Reach p0 m → Reach p0 m'
  ext : Ext m m'
  names : m'.names = m.names ++ rootNames root
  rootOk : RootOk C root m' t.name
  frames : ∃ l, m'.frames = m.frames ++ l ∧ ∀ f ∈ l, (f.type = BODY ∧ f.name = t.name) ∨
    (f.type = JOINT ∧ f.name ∈ rootNames root)
  inertia : MassFine (convInertial t.inertial).mass →
    InSum m m' (fun i => contrib m' i t) (fun i => contribMass m' i t)

theorem link_one {m m' : Model K P} {bf : Frame K} {c : String} (d : FramesDistinct m'.frames)
    (hf : m'.frames = m.frames ++ [bf]) (hc : m.existFrame c BODY = false)
    (hb : bf.type = BODY) (hn : bf.name = c) : m'.link c = some bf := by
  rw [link_eq d, hf, List.find?_append]
  have h1 : m.frames.find? (filterFrame c BODY) = none := by
    rw [List.find?_eq_none]
    unfold existFrame at hc
    rw [List.any_eq_false] at hc
    intro x hx
    exact hc x hx
  have h3 : filterFrame c BODY bf = true := by
    unfold filterFrame
    rw [hb, hn]
    simp [BODY]
  rw [h1, Option.none_or]
  simp only [List.find?_cons, h3]

theorem root_cases {p0 : P} (C : JColl K P) {root : Option (JDesc P × String)} (hp : RootPlain root) {m : Model K P}
    (hr : Reach p0 m) {t : ULink K} (hf : FreshTree m root t) :
    ((∀ n ∈ rootNames root, n ∉ m.names) ∧ ∃ m', urdfRoot C root (convInertial t.inertial) t.name m = .ok m' () ∧ RootStep C root m m' t) ∨
    (¬ (∀ n ∈ rootNames root, n ∉ m.names) ∧ ∀ m', urdfRoot C root (convInertial t.inertial) t.name m ≠ .ok m' ()) := by
  have hi := hr.inv
  have hl := hi.lens
  have f0 := hr.base.f0
  have hb : m.existFrame t.name BODY = false := hf.link t (by simp [ULink.links])
  unfold urdfRoot
  rw [f0]
  dsimp only
  cases root with
  | none =>
    left
    refine ⟨by simp [rootNames], ?_⟩
    dsimp only
    set F : Frame K := ⟨t.name, (universeFrame : Frame K).parentJoint, 0, (universeFrame : Frame K).placement, BODY, convInertial t.inertial⟩ with hF
    have hpj : F.parentJoint < m.njoints := hl.pos
    refine ⟨m.pushFrame F, by rw [addFrame_fresh hpj hb]; rfl, ?_⟩
    have r : ∀ p0, Reach p0 m → Reach p0 (m.pushFrame F) := fun q h => reach_pushFrame h hpj hb
    have hlk : (m.pushFrame F).link t.name = some F := link_one (m := m) (r p0 hr).framesDistinct rfl hb rfl rfl
    refine ⟨r, ext_pushFrame m F, by simp [rootNames]; rfl, ⟨F, hlk, rfl, rfl⟩, ⟨[F], rfl, ?_⟩, fun hY => ?_⟩
    · intro f hf
      rw [List.mem_singleton] at hf
      subst hf
      exact Or.inl ⟨rfl, rfl⟩
    · refine (insum_push (f := F) (by rw [hl.inertias]; exact hpj) hY).congr (fun i => ?_) (fun i => ?_)
      · unfold contrib; rw [hlk]
      · unfold contribMass; rw [hlk]
  | some r =>
    obtain ⟨d, n⟩ := r
    dsimp only
    have hjn := existFrame_sub (hf.joint n (by simp [rootNames]))
    obtain ⟨hd1, hd2⟩ := hp (d, n) rfl
    have hd : d = ⟨d.payload, d.nq, d.nv, d.nv, none⟩ := by
      obtain ⟨d1, d2, d3, d4, d5⟩ := d
      dsimp only at hd1 hd2 ⊢
      rw [hd1, hd2]
    by_cases hex : n ∈ m.names
    · right
      refine ⟨by simpa [rootNames] using hex, ?_⟩
      rw [if_pos (existJointName_iff.2 hex)]
      intro m' h; cases h
    left
    refine ⟨by simpa [rootNames] using hex, ?_⟩
    rw [if_neg (fun h => hex (existJointName_iff.1 h))]
    set A : JointArgs K P := ⟨(universeFrame : Frame K).parentJoint, d, 1, n, List.replicate d.nv C.max, List.replicate d.nv C.max,
          List.replicate d.nq (-C.max), List.replicate d.nq C.max, List.replicate d.nv 0, List.replicate d.nv 0⟩ with hA
    rcases add_step hr (a := A) (by intro y hy; rw [hA] at hy; dsimp only at hy; rw [hd1] at hy; cases hy) (pid := 0)
      (Y := convInertial t.inertial) (c := t.name) hjn.1 hb with
      ⟨h, -⟩ | ⟨-, m1, e, m', he, ad, hrun, r4, x34, x4, nm, f4, l4, g1, g2, g3, hsum⟩
    · refine absurd ⟨?_, ?_, ?_, ?_, ?_, ?_, hl.pos⟩ h <;> simp [hA]
    refine ⟨m', hrun, r4, x4, by rw [nm]; rfl, ?_, ⟨_, f4, ?_⟩, fun hY => (hsum hY).congr (fun i => ?_) (fun i => ?_)⟩
    · refine ⟨_, l4, ?_, ?_⟩
      · change (1 : SE3 K) * 1 = 1; exact SE3.mul_one 1
      refine ⟨hl.pos, g1, g2, g3, ?_⟩
      have hh : HasJoint m1 m.njoints ⟨d.payload, d.nq, d.nv, List.replicate d.nv C.max, List.replicate d.nv C.max,
          List.replicate d.nq (-C.max), List.replicate d.nq C.max, List.replicate d.nv 0, List.replicate d.nv 0⟩ := by
        refine ⟨e, ?_, ?_, ?_⟩
        · rw [ad.joints, ← hl.joints]; simp
        · rw [ad.desc]; exact hd
        · obtain ⟨q1, q2⟩ := ad.plain hd1
          refine ⟨?_, ?_, ?_, ?_, ?_, ?_⟩
          · rw [ad.effortLimit]; exact slice_end _ _ _ (by simp [hA]) _ (by rw [q2, hl.effortLimit])
          · rw [ad.velocityLimit]; exact slice_end _ _ _ (by simp [hA]) _ (by rw [q2, hl.velocityLimit])
          · rw [ad.lowerPositionLimit]; exact slice_end _ _ _ (by simp [hA]) _ (by rw [q1, hl.lowerPositionLimit])
          · rw [ad.upperPositionLimit]; exact slice_end _ _ _ (by simp [hA]) _ (by rw [q1, hl.upperPositionLimit])
          · rw [ad.friction]; exact slice_end _ _ _ (by simp [hA]) _ (by rw [q2, hl.friction])
          · rw [ad.damping]; exact slice_end _ _ _ (by simp [hA]) _ (by rw [q2, hl.damping])
      exact hh.ext x34 (by simp)
    · intro f hf
      simp only [List.mem_cons, List.not_mem_nil, or_false] at hf
      rcases hf with rfl | rfl
      · exact Or.inr ⟨rfl, by simp [rootNames, jframe, hA]⟩
      · exact Or.inl ⟨rfl, rfl⟩
    · unfold contrib; rw [l4]
    · unfold contribMass; rw [l4]

theorem HasJoint.root_ext {m m' : Model K P} (h : Ext m m') (d : FramesDistinct m.frames) (d' : FramesDistinct m'.frames)
    {C : JColl K P} {root : Option (JDesc P × String)} {n : String} (hr : RootOk C root m n) : RootOk C root m' n := by
  obtain ⟨f, h1, h2, h3⟩ := hr
  refine ⟨f, h.link d d' h1, h2, ?_⟩
  cases root with
  | none => exact h3
  | some r =>
    obtain ⟨a1, a2, a3, a4, a5⟩ := h3
    exact ⟨a1, prefix_get h.names a2, prefix_get h.parents a3, prefix_get h.jointPlacements a4, a5.ext h (by simp)⟩

/-- what reading a description does -/
structure BuildStep (C : JColl K P) (mimic : Bool) (root : Option (JDesc P × String)) (m m' : Model K P) (t : ULink K) : Prop where
  reach : ∀ p0, Reach p0 m → Reach p0 m'
  ext : Ext m m'
  names : m'.names = m.names ++ rootNames root ++ movNames t.edges
  rootOk : RootOk C root m' t.name
  edges : ∀ x ∈ t.edges, EdgeOk C mimic m' x.1 x.2.1 x.2.2.name
  inertia : (∀ l ∈ t.links, MassFine (convInertial l.inertial).mass) →
    InSum m m' (fun i => (t.links.map fun l => contrib m' i l).sum) (fun i => (t.links.map fun l => contribMass m' i l).sum)

theorem build_cases {p0 : P} (C : JColl K P) (mimic : Bool) {root : Option (JDesc P × String)} (hp : RootPlain root) {m : Model K P}
    (hr : Reach p0 m) {t : ULink K} (hf : FreshTree m root t) :
    (Accepted C mimic root t m ∧ ∃ m', buildUrdf C mimic root t m = .ok m' () ∧ BuildStep C mimic root m m' t) ∨
    (¬ Accepted C mimic root t m ∧ ∀ m', buildUrdf C mimic root t m ≠ .ok m' ()) := by
  unfold buildUrdf Accepted
  by_cases hne : root.any (fun r => r.2 = "") = true
  · right
    rw [if_pos hne]
    refine ⟨fun h => ?_, fun m' h => by cases h⟩
    cases root with
    | none => simp at hne
    | some r => exact (h.1 r.2 (by simp [rootNames])).1 (by simpa using hne)
  rw [if_neg hne]
  have hne' : ∀ n ∈ rootNames root, n ≠ "" := by
    intro n hn
    cases root with
    | none => simp [rootNames] at hn
    | some r =>
      simp only [rootNames, Option.toList, List.map_cons, List.map_nil, List.mem_singleton] at hn
      simpa [hn] using hne
  rcases root_cases C hp hr hf with ⟨h1, m1, h2, h3⟩ | ⟨h1, h2⟩
  swap
  · right
    exact ⟨fun h => h1 fun n hn => (h.1 n hn).2, fun m' => bind_not_ok _ (fun s _ => h2 s) m' ()⟩
  rw [h2, bind_ok]
  obtain ⟨f, hlk, -⟩ := h3.rootOk
  obtain ⟨l, e1, e2⟩ := h3.frames
  have hed : forestEdges t.name t.children = t.edges := by
    cases t; rw [ULink.edges]; rfl
  have hfr : Fresh m1 t.edges := by
    obtain ⟨g1, g2, g3, g4⟩ := hf
    unfold ULink.links at g1 g3
    unfold ULink.joints at g2 g4
    rw [List.map_cons, List.map_map, List.nodup_cons] at g1
    rw [List.map_map] at g2 g4
    refine ⟨g1.2, g2.of_append_right, fun x hx => ?_, fun x hx => ?_⟩
    · rw [existFrame_ext m l _ _ e1, g3 x.2.2 (by simp; right; exact ⟨_, _, hx⟩), Bool.false_or, List.any_eq_false]
      intro f hf
      rw [Bool.not_eq_true]
      apply filter_ne
      rcases e2 f hf with ⟨c1, c2⟩ | ⟨c1, c2⟩
      · right
        intro hh
        apply g1.1
        rw [← c2, ← hh]
        exact List.mem_map.2 ⟨x, hx, rfl⟩
      · left; rw [c1]; rfl
    · rw [existFrame_ext m l _ _ e1, g4 x.2.1.name (List.mem_append_right _ (List.mem_map.2 ⟨x, hx, rfl⟩)), Bool.false_or, List.any_eq_false]
      intro f hf
      rw [Bool.not_eq_true]
      apply filter_ne
      rcases e2 f hf with ⟨c1, c2⟩ | ⟨c1, c2⟩
      · left; rw [c1]; rfl
      · right
        intro hh
        rw [← hh] at c2
        exact (List.disjoint_of_nodup_append g2) c2 (List.mem_map.2 ⟨x, hx, rfl⟩)
  have := parseChildren_outcome C mimic t.children t.name m1 f (h3.reach _ hr) hlk (by rw [hed]; exact hfr)
  rw [hed] at this
  unfold Outcome at this
  rw [h3.names] at this
  rcases this with ⟨g1, m2, g2, g3⟩ | ⟨g1, g2⟩
  · left
    refine ⟨⟨fun n hn => ⟨hne' n hn, h1 n hn⟩, g1⟩, m2, g2, ?_⟩
    have d1 := (h3.reach _ hr).framesDistinct
    have d2 := (g3.reach _ (h3.reach _ hr)).framesDistinct
    refine ⟨fun p h => g3.reach p (h3.reach p h), h3.ext.trans g3.ext, by rw [g3.names, h3.names],
      HasJoint.root_ext g3.ext d1 d2 h3.rootOk, g3.edges, fun hY => ?_⟩
    unfold ULink.links at hY ⊢
    have s1 := h3.inertia (hY t (by simp))
    have s2 := g3.inertia (fun x hx => hY x.2.2 (by simp; right; exact ⟨_, _, hx⟩))
    refine (s1.trans s2).congr (fun i => ?_) (fun i => ?_)
    · rw [List.map_cons, List.sum_cons, (contrib_ext g3.ext d1 d2 hlk i).1, List.map_map]; rfl
    · rw [List.map_cons, List.sum_cons, (contrib_ext g3.ext d1 d2 hlk i).2, List.map_map]; rfl
  · right
    exact ⟨fun h => g1 h.2, g2⟩

end Model
end Pin
