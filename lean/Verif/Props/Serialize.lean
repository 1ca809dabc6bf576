import Verif.Model.EqualityLemmas
import Mathlib.Data.Rat.Defs

/-!
# C62: saving and loading

What the four archive formats give back for joints, models and geometry models, whatever the object loaded into holds.
-/

namespace Pin
open Arch

/-! ## Specification -/

/-- What `addJoint` guarantees of the joints of a model: the first one, of the universe, is not a mimic joint; the others
have their position in the table as id; a mimic joint follows a joint which has a smaller id, which is not composite and
whose own copy, in the mimic joint, has the indexes `0, 0` (`joint/joint-mimic.hpp:591-616`). -/
structure SModel.Placed {K : Type} (m : SModel K) : Prop where
  root : ∀ j, m.joints[0]? = some j → j.hasMimic = false
  ids : ∀ i j, 0 < i → m.joints[i]? = some j → j.idx.id = i
  mimics : ∀ j ∈ m.joints, j.hasMimic = false ∨ ∃ ix jm s o a b, j = .mimic ix jm s o a b ∧ jm.isLeaf = true
    ∧ jm.idx.q = 0 ∧ jm.idx.v = 0 ∧ jm.idx.id < ix.id

/-- the numbers of a list of values are finite -/
def AllFinite {K : Type} (l : List (Tok K)) : Prop := ∀ x, Tok.num x ∈ l → ∃ y : K, x = .fin y

/-- the reference configurations are ordered by name, without repetition: they are kept in a `std::map` -/
def SModel.SortedRefs {K : Type} (m : SModel K) : Prop := m.refs.Pairwise (fun a b => a.1 < b.1)

variable {K : Type}

private theorem rds_of {f : Fmt} {l : List (Tok K)} (h : f = .string → AllFinite l) : Rds f l := by
  intro x hx
  cases f with
  | string =>
    obtain ⟨y, rfl⟩ := h rfl x hx
    rfl
  | _ => cases x <;> rfl

private theorem setOk_leaf {j : SJoint K} (i : ℕ) (h : j.hasMimic = false) : j.setOk i = true :=
  SJoint.setOk_of_noMimic j i h

private theorem setOk_placed {cur : SModel K} (hc : cur.Placed) {i : ℕ} {c : SJoint K} (h : cur.joints[i]? = some c)
    {k : ℕ} (hk : 0 < i → k = i) : c.setOk k = true := by
  rcases hc.mimics c (List.mem_of_getElem? h) with h0 | ⟨ix, jm, s, o, a, b, rfl, h1, h2, h3, h4⟩
  · exact setOk_leaf k h0
  · rcases Nat.eq_zero_or_pos i with rfl | hi
    · have := hc.root _ h; simp [SJoint.hasMimic] at this
    · have e := hc.ids i _ hi h
      simp only [SJoint.idx] at e
      rw [hk hi, SJoint.setOk, ← e]
      exact decide_eq_true h4

private theorem default_setOk (i : ℕ) : (SJoint.default : SJoint K).setOk i = true := by
  simp [SJoint.default, SJoint.setOk]

private theorem targets_ok {cur m : SModel K} (hc : cur.Placed) (hm : m.Placed) :
    List.Forall₂ (fun c j => c.setOk (SJoint.idx j).id = true) (SModel.resizeJ cur.joints m.joints.length) m.joints := by
  rw [List.forall₂_iff_get]
  refine ⟨by simp [SModel.resizeJ]; omega, fun i h1 h2 => ?_⟩
  simp only [List.get_eq_getElem]
  have hk : 0 < i → (m.joints[i]).idx.id = i := fun hi => hm.ids i _ hi (List.getElem?_eq_getElem h2)
  by_cases hi : i < cur.joints.length
  · have : (SModel.resizeJ cur.joints m.joints.length)[i] = cur.joints[i] := by
      simp only [SModel.resizeJ]
      rw [List.getElem_append_left (by simp; omega), List.getElem_take]
    rw [this]
    exact setOk_placed hc (List.getElem?_eq_getElem hi) hk
  · have : (SModel.resizeJ cur.joints m.joints.length)[i] = .default := by
      simp only [SModel.resizeJ]
      rw [List.getElem_append_right (by simp; omega), List.getElem_replicate]
    rw [this]; exact default_setOk _

private theorem wfs_of_placed {js : List (SJoint K)} (h : ∀ j ∈ js, j.hasMimic = false ∨ ∃ ix jm s o a b,
    j = .mimic ix jm s o a b ∧ jm.isLeaf = true ∧ jm.idx.q = 0 ∧ jm.idx.v = 0 ∧ jm.idx.id < ix.id) : SJoint.WFs js := by
  induction js with
  | nil => trivial
  | cons j js ih =>
    refine ⟨?_, ih fun x hx => h x (by simp [hx])⟩
    rcases h j (by simp) with h0 | ⟨ix, jm, s, o, a, b, rfl, h1⟩
    · exact SJoint.wf_of_noMimic j h0
    · rw [SJoint.WF]; exact h1

private theorem forgets_of_noMimic {js : List (SJoint K)} (h : ∀ j ∈ js, j.hasMimic = false) : SJoint.forgets js = js := by
  induction js with
  | nil => rfl
  | cons j js ih => rw [SJoint.forgets, SJoint.forget_eq j (h j (by simp)), ih fun x hx => h x (by simp [hx])]

/-! ## Models -/

/-- **Saving then loading a model**, in any of the four formats, into any model, gives back the model saved, all its members,
and consumes exactly what was written; the string format requires finite numbers. Restricted to models without mimic
joint (see `C62_mimic_partial`). -/
theorem C62_model (f : Fmt) (cur m : SModel K) (rest : List (Tok K)) (hc : cur.Placed) (hm : m.Placed)
    (hs : m.SortedRefs) (hn : ∀ j ∈ m.joints, j.hasMimic = false) (hf : f = .string → AllFinite m.saveModel) :
    SModel.loadModel f cur (m.saveModel ++ rest) = some (m, rest) := by
  have := SModel.loadModel_saveModel f cur m rest (rds_of hf) hs (wfs_of_placed hm.mimics) (targets_ok hc hm)
  have e : ({ m with joints := SJoint.forgets m.joints } : SModel K) = m := by rw [forgets_of_noMimic hn]
  exact this.trans (by rw [e])

/-- Two models without mimic joint which are saved alike are equal. -/
theorem C62_injective (m m' : SModel K) (hm : m.Placed) (hm' : m'.Placed) (hs : m.SortedRefs) (hs' : m'.SortedRefs)
    (hn : ∀ j ∈ m.joints, j.hasMimic = false) (hn' : ∀ j ∈ m'.joints, j.hasMimic = false)
    (h : m.saveModel = m'.saveModel) : m = m' := by
  have h1 := C62_model .binary m m [] hm hm hs hn (by simp)
  have h2 := C62_model .binary m m' [] hm hm' hs' hn' (by simp)
  rw [h] at h1
  exact (Prod.mk.inj (Option.some.inj (h1.symm.trans h2))).1

/-- what loading gives for a joint of a model: the joint saved, with the two sizes kept by a mimic joint indeterminate -/
def SJoint.loaded : SJoint K → SJoint K
  | .mimic ix jm s o _ _ => .mimic ix jm s o none none
  | j => j

theorem forgets_of_placed {js : List (SJoint K)} (h : ∀ j ∈ js, j.hasMimic = false ∨ ∃ ix jm s o a b,
    j = .mimic ix jm s o a b ∧ jm.isLeaf = true ∧ jm.idx.q = 0 ∧ jm.idx.v = 0 ∧ jm.idx.id < ix.id) :
    SJoint.forgets js = js.map SJoint.loaded := by
  induction js with
  | nil => rfl
  | cons j js ih =>
    rw [SJoint.forgets, List.map_cons, ih fun x hx => h x (by simp [hx])]
    congr 1
    rcases h j (by simp) with h0 | ⟨ix, jm, s, o, a, b, rfl, h1⟩
    · rw [SJoint.forget_eq j h0]
      cases j <;> simp_all [SJoint.loaded, SJoint.hasMimic]
    · rfl

/-- **Saving then loading a model with mimic joints** gives back the model saved but for two sizes of its mimic joints, which
are left indeterminate. What is missing for the full property: those two sizes (`C62_mimic_counterexample`). -/
theorem C62_mimic_partial (f : Fmt) (cur m : SModel K) (rest : List (Tok K)) (hc : cur.Placed) (hm : m.Placed)
    (hs : m.SortedRefs) (hf : f = .string → AllFinite m.saveModel) :
    SModel.loadModel f cur (m.saveModel ++ rest) = some ({ m with joints := m.joints.map SJoint.loaded }, rest) := by
  have := SModel.loadModel_saveModel f cur m rest (rds_of hf) hs (wfs_of_placed hm.mimics) (targets_ok hc hm)
  have e : ({ m with joints := SJoint.forgets m.joints } : SModel K) = { m with joints := m.joints.map SJoint.loaded } := by
    rw [forgets_of_placed hm.mimics]
  exact this.trans (by rw [e])

/-! ## Joints -/

/-- **Saving then loading a joint** (not a mimic joint) into any joint which is not a mimic joint gives back the joint
saved. -/
theorem C62_joint (f : Fmt) (cur j : SJoint K) (rest : List (Tok K)) (hc : cur.hasMimic = false)
    (hj : j.hasMimic = false) (hf : f = .string → AllFinite j.saveJ) :
    SJoint.loadJoint f cur (j.saveJ ++ rest) = some (j, rest) := by
  have := SJoint.loadJoint_saveJ f cur j rest (SJoint.wf_of_noMimic j hj) (SJoint.setOk_of_noMimic cur _ hc) (rds_of hf)
  rwa [SJoint.forget_eq j hj] at this

/-! ## Geometry -/

/-- **Saving then loading a geometry model** whose objects have no material gives back the geometry model saved, whatever
the one loaded into. -/
theorem C62_geometry (one zero : Flt K) (f : Fmt) (cur g : SGeomModel K) (rest : List (Tok K))
    (hm : ∀ o ∈ g.objects, o.material = none) (hf : f = .string → AllFinite g.saveGM) :
    SGeomModel.loadGM one zero f cur (g.saveGM ++ rest) = some (g, rest) := by
  rw [SGeomModel.loadGM_saveGM one zero f cur g rest (rds_of hf)]
  have : g.objects.map (fun o => { o with material := none }) = g.objects := by
    conv_rhs => rw [← List.map_id g.objects]
    exact List.map_congr_left fun o ho => by
      have := hm o ho
      cases o; simp_all
  rw [this]

/-- **Saving then loading a geometry model** gives back the geometry model saved but for the materials. What is missing for
the full property: the materials (`C62_material_counterexample`). -/
theorem C62_geometry_partial (one zero : Flt K) (f : Fmt) (cur g : SGeomModel K) (rest : List (Tok K))
    (hf : f = .string → AllFinite g.saveGM) :
    SGeomModel.loadGM one zero f cur (g.saveGM ++ rest)
      = some ({ g with objects := g.objects.map fun o => { o with material := none } }, rest) :=
  SGeomModel.loadGM_saveGM one zero f cur g rest (rds_of hf)

/-- **Saving then loading one geometry object** into an object which has the same material gives back the object saved. -/
theorem C62_object (f : Fmt) (cur g : SGeom K) (rest : List (Tok K)) (hm : cur.material = g.material)
    (hf : f = .string → AllFinite g.saveGeom) :
    SGeom.loadGeom f cur (g.saveGeom ++ rest) = some (g, rest) := by
  rw [SGeom.loadGeom_saveGeom f cur g rest (rds_of hf), hm]

/-! ## Concrete objects -/

namespace SerEx

def v (x y z : ℚ) : V3 (Flt ℚ) := ⟨.fin x, .fin y, .fin z⟩
def one : M3 (Flt ℚ) := ⟨.fin 1, .fin 0, .fin 0, .fin 0, .fin 1, .fin 0, .fin 0, .fin 0, .fin 1⟩
def pl : SE3 (Flt ℚ) := ⟨one, v 1 2 3⟩
def iner : Inertia (Flt ℚ) := ⟨.fin 2, v 0 1 0, ⟨.fin 1, .fin 0, .fin 1, .fin 0, .fin 0, .fin 1⟩⟩

/-- a revolute joint, about a given axis -/
def rev : SJoint ℚ := .axis .revolute ⟨1, 0, 0, 0⟩ (v 0 (3/5) (4/5))
/-- a composite joint: a helical joint, then a composite joint with a prismatic joint -/
def comp : SJoint ℚ := .composite ⟨2, 1, 1, 1⟩ ⟨2, 2, 2, [1, 2], [1, 1], [1, 2], [1, 1], [1, 2], [1, 1], 2⟩
  [.helical 2 ⟨0, 1, 1, 1⟩ (.fin (1/3)), .composite ⟨1, 2, 2, 2⟩ ⟨1, 1, 1, [2], [1], [2], [1], [2], [1], 1⟩
    [.plain .px ⟨0, 2, 2, 2⟩] [pl]] [pl, pl]
/-- a joint which follows the revolute one -/
def mim : SJoint ℚ := .mimic ⟨3, 0, 0, 3⟩ (.axis .revolute ⟨1, 0, 0, 0⟩ (v 0 (3/5) (4/5))) (.fin 2) (.fin 1) (some 1) (some 1)

/-- a model with the joints given after that of the universe -/
def model (js : List (SJoint ℚ)) : SModel ℚ where
  nq := 3
  nv := 3
  nvx := 4
  njoints := js.length + 1
  nbodies := 2
  nframes := 1
  inertias := [iner, iner]
  jointPlacements := [pl, pl]
  joints := .default :: js
  idx_qs := [0, 0, 1]
  nqs := [0, 1, 2]
  idx_vs := [0, 0, 1]
  nvs := [0, 1, 2]
  idx_vxs := [0, 0, 1]
  nvxs := [0, 1, 2]
  parents := [0, 0, 1]
  children := [[1], [2], []]
  mimicking := []
  mimicked := []
  names := ["universe", "a", "b"]
  refs := [("half_sitting", [.fin 1, .fin 2, .fin 3])]
  armature := [.fin 0, .fin 1, .fin 2]
  rotorInertia := [.fin 0, .fin 0, .fin 0]
  rotorGearRatio := [.fin 1, .fin 1, .fin 1]
  friction := [.fin 0, .fin 0, .fin 0]
  damping := [.fin 0, .fin 0, .fin 0]
  effortLimit := [.fin 9, .fin 9, .fin 9]
  velocityLimit := [.fin 9, .fin 9, .fin 9]
  lowerPositionLimit := [.fin (-1), .fin (-1), .fin (-1)]
  upperPositionLimit := [.fin 1, .fin 1, .fin 1]
  frames := [⟨"universe", 0, 0, pl, 2, iner⟩]
  supports := [[0], [0, 1], [0, 1, 2]]
  mimicSupports := [[0], [0], [0]]
  subtrees := [[0, 1, 2], [1, 2], [2]]
  gravity := ⟨v 0 0 (-9), v 0 0 0⟩
  name := "m"

theorem placed0 : (model [rev, comp]).Placed where
  root j h := by simp [model] at h; subst h; simp [SJoint.default, SJoint.hasMimic]
  ids i j hi h := by
    rcases i with _ | _ | _ | i
    · omega
    · simp [model] at h; subst h; rfl
    · simp [model] at h; subst h; rfl
    · simp [model] at h
  mimics j h := by
    left
    simp only [model, List.mem_cons, List.not_mem_nil, or_false] at h
    rcases h with rfl | rfl | rfl <;> simp [SJoint.default, SJoint.hasMimic, rev, comp, SJoint.haveMimic]

theorem placed1 : (model [rev, comp, mim]).Placed where
  root j h := by simp [model] at h; subst h; simp [SJoint.default, SJoint.hasMimic]
  ids i j hi h := by
    rcases i with _ | _ | _ | _ | i
    · omega
    · simp [model] at h; subst h; rfl
    · simp [model] at h; subst h; rfl
    · simp [model] at h; subst h; rfl
    · simp [model] at h
  mimics j h := by
    simp only [model, List.mem_cons, List.not_mem_nil, or_false] at h
    rcases h with rfl | rfl | rfl | rfl
    · left; simp [SJoint.default, SJoint.hasMimic]
    · left; simp [SJoint.hasMimic, rev]
    · left; simp [comp, SJoint.hasMimic, SJoint.haveMimic]
    · right; exact ⟨_, _, _, _, _, _, rfl, rfl, rfl, rfl, by decide⟩

/-- a box, with a material or without -/
def geom (m : Option (Phong ℚ)) : SGeom ℚ :=
  ⟨"box", 1, 2, pl, 7, "box.stl", v 1 1 1, true, [.fin 1, .fin 0, .fin 0, .fin 1], m, "", false⟩

def gmodel (m : Option (Phong ℚ)) : SGeomModel ℚ := ⟨2, [geom m, geom none], [(0, 1)], 2, 2, [-1, 0, 0, -1]⟩

end SerEx

open SerEx

private theorem noMimic0 : ∀ j ∈ (model [rev, comp]).joints, j.hasMimic = false := fun j h => by
  simp only [model, List.mem_cons, List.not_mem_nil, or_false] at h
  rcases h with rfl | rfl | rfl <;> simp [SJoint.default, SJoint.hasMimic, rev, comp, SJoint.haveMimic]

/-- `C62_model` and `C62_injective` apply to a model with a revolute joint and a composite joint of composite joints, loaded
into a model with a mimic joint. -/
example (f : Fmt) (hf : f ≠ .string) : SModel.loadModel f (model [rev, comp, mim]) ((model [rev, comp]).saveModel ++ [])
    = some (model [rev, comp], []) :=
  C62_model f _ _ [] placed1 placed0 (List.pairwise_singleton _ _) noMimic0 (fun h => absurd h hf)

/-- the string format too -/
example : AllFinite (model [rev, comp]).saveModel := by
  intro x hx
  have h : (model [rev, comp]).saveModel.all (fun t => match t with
    | .num (.fin _) => true | .num _ => false | _ => true) = true := by decide +kernel
  have := List.all_eq_true.1 h _ hx
  cases x <;> simp_all

/-- `C62_mimic_partial` -/
example (f : Fmt) (hf : f ≠ .string) : SModel.loadModel f (model [rev, comp]) ((model [rev, comp, mim]).saveModel ++ [])
    = some ({ model [rev, comp, mim] with joints := (model [rev, comp, mim]).joints.map SJoint.loaded }, []) :=
  C62_mimic_partial f _ _ [] placed0 placed1 (List.pairwise_singleton _ _) (fun h => absurd h hf)

/-- `C62_joint` -/
example : SJoint.loadJoint .xml rev (comp.saveJ ++ [.nat 3]) = some (comp, [.nat 3]) :=
  C62_joint .xml rev comp _ (by simp [SJoint.hasMimic, rev]) (by simp [comp, SJoint.hasMimic, SJoint.haveMimic]) (by simp)

/-- `C62_geometry` -/
example : SGeomModel.loadGM (.fin 1) (.fin 0) .text (gmodel (some ⟨[], [], .fin 1⟩)) ((gmodel none).saveGM ++ [])
    = some (gmodel none, []) :=
  C62_geometry _ _ .text _ _ [] (by simp [gmodel, geom]) (by simp)

/-- `C62_object` -/
example : SGeom.loadGeom .text (geom none) ((geom none).saveGeom ++ []) = some (geom none, []) :=
  C62_object .text _ _ [] rfl (by simp)

/-! ## Findings -/

/-- A mimic joint loses two sizes: `JointModelMimic` keeps the numbers of configuration and velocity variables of the joint
it follows in `m_nqExtended` and `m_nvExtended`, which `serialization/joints-model.hpp:297-315` does not save, and which
its default constructor (`joint/joint-mimic.hpp:586-588`) does not initialise. After loading, `nqExtended()` and
`nvExtended()` of the joint are indeterminate, though `operator==` finds the loaded model equal to the one saved. -/
theorem C62_mimic_counterexample : ∃ m m' : SModel ℚ, m.Placed ∧
    SModel.loadModel .binary m (m.saveModel ++ []) = some (m', []) ∧ m.eqv m' = some true ∧
    (∃ ix jm s o, m.joints[3]? = some (.mimic ix jm s o (some 1) (some 1))) ∧
    (∃ ix jm s o, m'.joints[3]? = some (.mimic ix jm s o none none)) := by
  refine ⟨model [rev, comp, mim], _, placed1, C62_mimic_partial .binary _ _ [] placed1 placed1
    (List.pairwise_singleton _ _) (by simp), ?_, ⟨_, _, _, _, rfl⟩, ⟨_, _, _, _, rfl⟩⟩
  decide +kernel

/-- The string format cannot load what it saved when a number is infinite: `loadFromStringStream` and `loadFromString`
(`serialization/archive.hpp:110-145`) do not install the facet which reads `inf` and `nan`, unlike `loadFromText`, so that
a model with an unbounded joint, whose position limits are infinite, cannot be loaded. -/
theorem C62_infinite_counterexample : ∃ m : SModel ℚ, m.Placed ∧ m.SortedRefs ∧ (∀ j ∈ m.joints, j.hasMimic = false) ∧
    SModel.loadModel .string m m.saveModel = none ∧ SModel.loadModel .text m (m.saveModel ++ []) = some (m, []) := by
  refine ⟨{ model [rev, comp] with upperPositionLimit := [.inf false, .fin 1, .fin 1] }, ⟨placed0.root, placed0.ids,
    placed0.mimics⟩, List.pairwise_singleton _ _, noMimic0, ?_, C62_model .text _ _ [] ⟨placed0.root, placed0.ids,
    placed0.mimics⟩ ⟨placed0.root, placed0.ids, placed0.mimics⟩ (List.pairwise_singleton _ _) noMimic0 (by simp)⟩
  rfl

/-- The material of a geometry object is not saved: `serialize(ar, GeometryObject)` (`serialization/geometry.hpp:51-63`)
omits `meshMaterial`, which `operator==` of `GeometryObject` compares; the loaded object has none. -/
theorem C62_material_counterexample : ∃ g g' : SGeomModel ℚ,
    SGeomModel.loadGM (.fin 1) (.fin 0) .binary g (g.saveGM ++ []) = some (g', []) ∧
    g.objects.map (·.material.isSome) = [true, false] ∧ g'.objects.map (·.material.isSome) = [false, false] :=
  ⟨gmodel (some ⟨[], [], .fin 1⟩), _, C62_geometry_partial _ _ .binary _ _ [] (by simp), rfl, rfl⟩

/-- Loading a joint may throw depending on the joint loaded into: `load` of `JointModel` first calls `setIndexes` on the joint
currently held (`serialization/joints-model.hpp:99-113`, through the base class), and `setIndexes` of a mimic joint throws
unless the new id is larger than that of the joint it follows. -/
theorem C62_target_counterexample : ∃ cur j : SJoint ℚ, j.hasMimic = false ∧
    SJoint.loadJoint .binary cur j.saveJ = none ∧ SJoint.loadJoint .binary .default (j.saveJ ++ []) = some (j, []) := by
  refine ⟨mim, .plain .rz ⟨1, 0, 0, 0⟩, rfl, rfl, C62_joint _ _ _ [] rfl rfl (by simp)⟩

end Pin
