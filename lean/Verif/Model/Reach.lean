import Verif.Model.Construction
import Mathlib.Data.List.Basic
import Mathlib.Data.List.Range
import Mathlib.Algebra.BigOperators.Group.List.Basic
import Mathlib.Data.List.GetD

/-!
# Construction histories and their invariant

`Op` lists the construction calls of the public API, `step` runs one (a call that throws leaves its
state behind and the history goes on), `Reach` is the set of states reachable from `ModelTpl()`.
-/

set_option linter.unusedSectionVars false
set_option linter.unusedSimpArgs false

namespace Pin
namespace Model
variable {K P : Type*} [Field K] [LinearOrder K] [HasEps K]

/-- Construction calls of `multibody/model.hpp:280-480`. -/
inductive Op (K P : Type*) where
  | addJoint (a : JointArgs K P)
  | addFrame (f : Frame K) (appendInertia : Bool)
  | addJointFrame (j : ℕ) (prev : Option ℕ)
  | appendBody (j : ℕ) (Y : Inertia K) (M : SE3 K)
  | addBodyFrame (name : String) (j : ℕ) (M : SE3 K) (parentFrame : Option ℕ)

/-- the state a call leaves behind, when it has one -/
def Res.state {S A : Type*} : Res S A → Option S
  | .ok s _ => some s
  | .throw s => some s
  | .ub => none

/-- One call; `none` when the call is undefined behaviour. -/
def step (m : Model K P) : Op K P → Option (Model K P)
  | .addJoint a => Res.state (m.addJoint a)
  | .addFrame f b => Res.state (m.addFrame f b)
  | .addJointFrame j p => Res.state (m.addJointFrame j p)
  | .appendBody j Y M => Res.state (m.appendBodyToJoint j Y M)
  | .addBodyFrame s j M p => Res.state (m.addBodyFrame s j M p)

/-- Admissible calls: a mimic joint has `nq = nv = 0` (`joint/joint-mimic.hpp:627-634`) and mimics a joint
that already belongs to the model. Everything else is unrestricted. -/
def OpOk (m : Model K P) : Op K P → Prop
  | .addJoint a => ∀ x, a.joint.mimic = some x → a.joint.nq = 0 ∧ a.joint.nv = 0 ∧ x.1 < m.njoints
  | _ => True

/-- States reachable from the default constructor by admissible calls, accepted or rejected. -/
inductive Reach (p0 : P) : Model K P → Prop
  | init : Reach p0 (empty p0)
  | step {m m' : Model K P} {op : Op K P} :
      Reach p0 m → OpOk m op → m.step op = some m' → Reach p0 m'

/-- all per-joint tables have `njoints` entries -/
structure LensOk (m : Model K P) : Prop where
  pos : 1 ≤ m.njoints
  inertias : m.inertias.length = m.njoints
  jointPlacements : m.jointPlacements.length = m.njoints
  joints : m.joints.length = m.njoints
  idx_qs : m.idx_qs.length = m.njoints
  nqs : m.nqs.length = m.njoints
  idx_vs : m.idx_vs.length = m.njoints
  nvs : m.nvs.length = m.njoints
  idx_vxs : m.idx_vxs.length = m.njoints
  nvxs : m.nvxs.length = m.njoints
  parents : m.parents.length = m.njoints
  children : m.children.length = m.njoints
  names : m.names.length = m.njoints
  supports : m.supports.length = m.njoints
  mimicSupports : m.mimicSupports.length = m.njoints
  subtrees : m.subtrees.length = m.njoints
  nframes : m.frames.length = m.nframes
  armature : m.armature.length = m.nv
  rotorInertia : m.rotorInertia.length = m.nv
  rotorGearRatio : m.rotorGearRatio.length = m.nv
  friction : m.friction.length = m.nv
  damping : m.damping.length = m.nv
  effortLimit : m.effortLimit.length = m.nv
  velocityLimit : m.velocityLimit.length = m.nv
  lowerPositionLimit : m.lowerPositionLimit.length = m.nq
  upperPositionLimit : m.upperPositionLimit.length = m.nq

/-- The inductive invariant of construction. -/
structure Inv (m : Model K P) : Prop where
  lens : LensOk m
  par : ∀ i, 1 ≤ i → i < m.njoints → m.parents.getD i 0 < i
  qsum : m.nqs.sum = m.nq
  vsum : m.nvs.sum = m.nv
  vxsum : m.nvxs.sum = m.nvx
  q0 : m.nqs.getD 0 0 = 0
  v0 : m.nvs.getD 0 0 = 0
  vx0 : m.nvxs.getD 0 0 = 0
  idxq : ∀ i, i < m.njoints → m.nqs.getD i 0 ≠ 0 → m.idx_qs.getD i 0 = (m.nqs.take i).sum
  idxv : ∀ i, i < m.njoints → m.nvs.getD i 0 ≠ 0 → m.idx_vs.getD i 0 = (m.nvs.take i).sum
  idxvx : ∀ i, i < m.njoints → m.idx_vxs.getD i 0 = (m.nvxs.take i).sum
  ent : ∀ i e, m.joints[i]? = some e → e.id = i ∧ m.idx_qs[i]? = some e.idx_q ∧
    m.idx_vs[i]? = some e.idx_v ∧ m.idx_vxs[i]? = some e.idx_vx ∧ m.nqs[i]? = some e.desc.nq ∧
    m.nvs[i]? = some e.desc.nv ∧ m.nvxs[i]? = some e.desc.nvx ∧
    (e.desc.mimic = none → e.idx_q = (m.nqs.take i).sum ∧ e.idx_v = (m.nvs.take i).sum)
  chi : ∀ p, p < m.njoints → m.children.getD p [] =
    (List.range m.njoints).filter (fun i => 1 ≤ i ∧ m.parents.getD i 0 = p)
  sup0 : m.supports.getD 0 [] = [0]
  sup : ∀ j, 1 ≤ j → j < m.njoints →
    m.supports.getD j [] = m.supports.getD (m.parents.getD j 0) [] ++ [j]
  sub : ∀ i, i < m.njoints → m.subtrees.getD i [] =
    (List.range m.njoints).filter (fun j => 1 ≤ j ∧ i ∈ m.supports.getD j [])

/-! ## list helpers -/

theorem getD_append_lt {α : Type*} (l : List α) (x : List α) (d : α) {i : ℕ} (h : i < l.length) :
    (l ++ x).getD i d = l.getD i d := by
  simp [List.getD, List.getElem?_append_left h]

theorem getD_append_eq {α : Type*} (l : List α) (x d : α) {i : ℕ} (h : i = l.length) :
    (l ++ [x]).getD i d = x := by
  subst h; simp [List.getD]

theorem getD_modify {α : Type*} (l : List α) (f : α → α) (d : α) (i j : ℕ) (hj : j < l.length) :
    (l.modify i f).getD j d = if i = j then f (l.getD j d) else l.getD j d := by
  simp only [List.getD, List.getElem?_modify]
  have : l[j]? = some l[j] := List.getElem?_eq_getElem hj
  by_cases hij : i = j <;> simp [hij, this]

theorem resize_setSeg (l x : List K) (junk : K) (n i : ℕ) (hn : n = l.length + x.length)
    (hi : x ≠ [] → i = l.length) : setSeg (resize junk l n) i x = l ++ x := by
  subst hn
  have hr : resize junk l (l.length + x.length) = l ++ List.replicate x.length junk := by
    simp [resize]
  rw [hr]
  cases x with
  | nil => simp [setSeg]
  | cons a t =>
    have := hi (by simp)
    subst this
    simp [setSeg]

/-! ## supports as ancestor sets -/

theorem mem_supports_le {m : Model K P} (h : Inv m) :
    ∀ j, j < m.njoints → ∀ i ∈ m.supports.getD j [], i ≤ j := by
  intro j
  induction j using Nat.strong_induction_on with
  | _ j ih =>
    intro hj i hi
    rcases Nat.eq_zero_or_pos j with rfl | hp
    · rw [h.sup0] at hi; simp at hi; omega
    · rw [h.sup j hp hj] at hi
      have hlt := h.par j hp hj
      rcases List.mem_append.1 hi with h1 | h1
      · have := ih _ hlt (by omega) i h1; omega
      · simp at h1; omega

theorem self_mem_supports {m : Model K P} (h : Inv m) (j : ℕ) (hj : j < m.njoints) :
    j ∈ m.supports.getD j [] := by
  rcases Nat.eq_zero_or_pos j with rfl | hp
  · rw [h.sup0]; simp
  · rw [h.sup j hp hj]; simp

theorem zero_mem_supports {m : Model K P} (h : Inv m) :
    ∀ j, j < m.njoints → 0 ∈ m.supports.getD j [] := by
  intro j
  induction j using Nat.strong_induction_on with
  | _ j ih =>
    intro hj
    rcases Nat.eq_zero_or_pos j with rfl | hp
    · exact self_mem_supports h 0 hj
    · rw [h.sup j hp hj]
      have hlt := h.par j hp hj
      exact List.mem_append_left _ (ih _ hlt (by omega))

theorem pushSubtrees_length (parents : List ℕ) (id : ℕ) : ∀ (fuel p : ℕ) (st : List (List ℕ)),
    (pushSubtrees parents id fuel p st).length = st.length := by
  intro fuel
  induction fuel with
  | zero => intro p st; simp [pushSubtrees]
  | succ n ih =>
    intro p st
    simp only [pushSubtrees]
    split
    · rw [ih]; simp
    · simp

/-- the subtree loop appends `id` to exactly the subtrees of the ancestors of `p` -/
theorem pushSubtrees_getD (parents : List ℕ) (S : ℕ → List ℕ) (n id : ℕ)
    (hpar : ∀ i, 1 ≤ i → i < n → parents.getD i 0 < i) (hS0 : S 0 = [0])
    (hS : ∀ j, 1 ≤ j → j < n → S j = S (parents.getD j 0) ++ [j])
    (hle : ∀ j, j < n → ∀ i ∈ S j, i ≤ j) :
    ∀ (fuel p : ℕ) (st : List (List ℕ)), p < n → p < fuel → n ≤ st.length → ∀ i, i < st.length →
      (pushSubtrees parents id fuel p st).getD i [] =
        if i ∈ S p then st.getD i [] ++ [id] else st.getD i [] := by
  intro fuel
  induction fuel with
  | zero => intro p st _ h; omega
  | succ f ih =>
    intro p st hp hf hn i hi
    simp only [pushSubtrees]
    split
    · rename_i hpos
      have hlt := hpar p hpos hp
      rw [ih _ _ (by omega) (by omega) (by simpa using hn) i (by simpa using hi),
        getD_modify _ _ _ _ _ hi, hS p hpos hp]
      by_cases hip : i ∈ S (parents.getD p 0)
      · have : i ≤ parents.getD p 0 := hle _ (by omega) i hip
        have hne : p ≠ i := by omega
        simp only [hip, hne, if_true, if_false, List.mem_append, true_or]
      · by_cases hpi : p = i
        · subst hpi; simp only [hip, if_true, if_false, List.mem_append, List.mem_singleton, or_true]
        · have : i ≠ p := fun e => hpi e.symm
          simp only [hip, hpi, this, if_false, List.mem_append, List.mem_singleton, or_self]
    · rename_i hz
      have : p = 0 := by omega
      subst this
      rw [getD_modify _ _ _ _ _ hi, hS0]
      by_cases h0 : 0 = i
      · subst h0; simp
      · have : i ≠ 0 := fun e => h0 e.symm
        simp [h0, this]

/-! ## preservation -/

theorem inv_bare (p0 : P) : Inv (bare p0 : Model K P) := by
  constructor
  · constructor <;> simp [bare]
  case ent =>
    intro i e he
    rcases i with _ | i
    · simp [bare] at he ⊢; subst he; simp
    · simp [bare] at he
  all_goals simp [bare]
  all_goals intros; omega

theorem take_append_sum (l : List ℕ) (x i : ℕ) (h : i ≤ l.length) :
    ((l ++ [x]).take i).sum = (l.take i).sum := by
  rw [List.take_append_of_le_length h]

/-- fields changed by nothing but `addJoint` -/
theorem inv_frames {m : Model K P} (h : Inv m) (I : List (Inertia K)) (F : List (Frame K)) (n b : ℕ)
    (hi : I.length = m.inertias.length) (hf : F.length = n) :
    Inv { m with inertias := I, frames := F, nframes := n, nbodies := b } := by
  have hl := h.lens
  exact ⟨⟨hl.pos, hi.trans hl.inertias, hl.jointPlacements, hl.joints, hl.idx_qs, hl.nqs, hl.idx_vs,
    hl.nvs, hl.idx_vxs, hl.nvxs, hl.parents, hl.children, hl.names, hl.supports, hl.mimicSupports,
    hl.subtrees, hf, hl.armature, hl.rotorInertia, hl.rotorGearRatio, hl.friction, hl.damping,
    hl.effortLimit, hl.velocityLimit, hl.lowerPositionLimit, hl.upperPositionLimit⟩,
    h.par, h.qsum, h.vsum, h.vxsum, h.q0, h.v0, h.vx0, h.idxq, h.idxv, h.idxvx, h.ent, h.chi, h.sup0,
    h.sup, h.sub⟩

theorem inv_addFrame {m m' : Model K P} (h : Inv m) (f : Frame K) (b : Bool)
    (hs : Res.state (m.addFrame f b) = some m') : Inv m' := by
  unfold addFrame at hs
  split at hs
  · simp [Res.state] at hs; exact hs ▸ h
  · split at hs
    · split at hs <;> simp [Res.state] at hs <;> exact hs ▸ h
    · simp [Res.state] at hs
      subst hs
      apply inv_frames h
      · cases b <;> simp
      · simp [h.lens.nframes]

theorem inv_empty (p0 : P) : Inv (empty p0 : Model K P) := by
  have h := fun m' => inv_addFrame (m' := m') (inv_bare p0) (universeFrame (K := K)) true
  unfold empty
  split
  · rename_i m a e
    exact h m (by rw [e]; rfl)
  · rename_i m e
    exact h m (by rw [e]; rfl)
  · exact inv_bare p0

theorem inv_addJointFrame {m m' : Model K P} (h : Inv m) (j : ℕ) (p : Option ℕ)
    (hs : Res.state (m.addJointFrame j p) = some m') : Inv m' := by
  unfold addJointFrame at hs
  split at hs
  · simp [Res.state] at hs; exact hs ▸ h
  · split at hs
    · simp [Res.state] at hs; exact hs ▸ h
    · exact inv_addFrame h _ _ hs

theorem inv_addBodyFrame {m m' : Model K P} (h : Inv m) (s : String) (j : ℕ) (M : SE3 K)
    (p : Option ℕ) (hs : Res.state (m.addBodyFrame s j M p) = some m') : Inv m' := by
  unfold addBodyFrame at hs
  split at hs
  · split at hs
    · simp [Res.state] at hs
    · split at hs
      · simp [Res.state] at hs; exact hs ▸ h
      · split at hs
        · simp [Res.state] at hs; exact hs ▸ h
        · exact inv_addFrame h _ _ hs
  · split at hs
    · simp [Res.state] at hs; exact hs ▸ h
    · exact inv_addFrame h _ _ hs

theorem inv_appendBody {m m' : Model K P} (h : Inv m) (j : ℕ) (Y : Inertia K) (M : SE3 K)
    (hs : Res.state (m.appendBodyToJoint j Y M) = some m') : Inv m' := by
  unfold appendBodyToJoint at hs
  split at hs
  · simp [Res.state] at hs
  · simp [Res.state] at hs
    subst hs
    exact inv_frames h _ m.frames m.nframes _ (by simp) h.lens.nframes

/-- the sizes and the parent index are those the call accepts -/
def ArgsOk (m : Model K P) (a : JointArgs K P) : Prop :=
  a.maxEffort.length = a.joint.nv ∧ a.maxVelocity.length = a.joint.nv ∧
  a.minConfig.length = a.joint.nq ∧ a.maxConfig.length = a.joint.nq ∧
  a.friction.length = a.joint.nv ∧ a.damping.length = a.joint.nv ∧ a.parent < m.njoints

/-- result of an accepted `addJoint`, on the fields that other theorems need -/
structure Added (m : Model K P) (a : JointArgs K P) (e : JEntry P) (m' : Model K P) : Prop where
  njoints : m'.njoints = m.njoints + 1
  nq : m'.nq = m.nq + a.joint.nq
  nv : m'.nv = m.nv + a.joint.nv
  nvx : m'.nvx = m.nvx + a.joint.nvx
  nbodies : m'.nbodies = m.nbodies
  nframes : m'.nframes = m.nframes
  frames : m'.frames = m.frames
  joints : m'.joints = m.joints ++ [e]
  inertias : m'.inertias = m.inertias ++ [0]
  parents : m'.parents = m.parents ++ [a.parent]
  children : m'.children = (m.children ++ [[]]).modify a.parent (· ++ [m.njoints])
  jointPlacements : m'.jointPlacements = m.jointPlacements ++ [a.placement]
  names : m'.names = m.names ++ [a.name]
  nqs : m'.nqs = m.nqs ++ [a.joint.nq]
  idx_qs : m'.idx_qs = m.idx_qs ++ [e.idx_q]
  nvs : m'.nvs = m.nvs ++ [a.joint.nv]
  idx_vs : m'.idx_vs = m.idx_vs ++ [e.idx_v]
  nvxs : m'.nvxs = m.nvxs ++ [a.joint.nvx]
  idx_vxs : m'.idx_vxs = m.idx_vxs ++ [e.idx_vx]
  effortLimit : m'.effortLimit = m.effortLimit ++ a.maxEffort
  velocityLimit : m'.velocityLimit = m.velocityLimit ++ a.maxVelocity
  lowerPositionLimit : m'.lowerPositionLimit = m.lowerPositionLimit ++ a.minConfig
  upperPositionLimit : m'.upperPositionLimit = m.upperPositionLimit ++ a.maxConfig
  armature : m'.armature = m.armature ++ List.replicate a.joint.nv 0
  rotorInertia : m'.rotorInertia = m.rotorInertia ++ List.replicate a.joint.nv 0
  rotorGearRatio : m'.rotorGearRatio = m.rotorGearRatio ++ List.replicate a.joint.nv 1
  friction : m'.friction = m.friction ++ a.friction
  damping : m'.damping = m.damping ++ a.damping
  subtrees : m'.subtrees = pushSubtrees (m.parents ++ [a.parent]) m.njoints (m.njoints + 1) a.parent
    (m.subtrees ++ [[m.njoints]])
  supports : m'.supports = m.supports ++ [m.supports.getD a.parent [] ++ [m.njoints]]
  mimicSupports : m'.mimicSupports.length = m.mimicSupports.length + 1
  desc : e.desc = a.joint
  id : e.id = m.njoints
  idx_vx : e.idx_vx = m.nvx
  plain : a.joint.mimic = none → e.idx_q = m.nq ∧ e.idx_v = m.nv

theorem addJoint_cases (m : Model K P) (a : JointArgs K P) (h : Inv m) (hok : OpOk m (.addJoint a)) :
    (¬ ArgsOk m a ∧ m.addJoint a = .throw m) ∨
    (ArgsOk m a ∧ ∃ e m', m.addJoint a = .ok m' m.njoints ∧ Added m a e m') := by
  by_cases hA : ArgsOk m a
  · right
    refine ⟨hA, ?_⟩
    obtain ⟨h1, h2, h3, h4, h5, h6, h7⟩ := hA
    have hl := h.lens
    have hset : ∃ e, a.joint.setIndexes m.njoints m.nq m.nv m.nvx = some e ∧ e.desc = a.joint ∧
        e.id = m.njoints ∧ e.idx_vx = m.nvx ∧
        (a.joint.mimic = none → e.idx_q = m.nq ∧ e.idx_v = m.nv) ∧
        (a.joint.nq ≠ 0 → e.idx_q = m.nq) ∧ (a.joint.nv ≠ 0 → e.idx_v = m.nv) := by
      unfold JDesc.setIndexes
      split
      · exact ⟨_, rfl, rfl, rfl, rfl, fun _ => ⟨rfl, rfl⟩, fun _ => rfl, fun _ => rfl⟩
      · rename_i mid mq mv hm
        have := hok _ hm
        simp only at this
        rw [if_pos this.2.2]
        exact ⟨_, rfl, rfl, rfl, rfl, by simp [hm], fun hh => absurd this.1 hh, fun hh => absurd this.2.1 hh⟩
    obtain ⟨e, he, hd, hid, hvx, hpl, hq, hv⟩ := hset
    have hresV : ∀ (l x : List K), l.length = m.nv → x.length = a.joint.nv →
        setSeg (resize 0 l (m.nv + a.joint.nv)) e.idx_v x = l ++ x := by
      intro l x hll hx
      apply resize_setSeg
      · rw [hll, hx]
      · intro hne
        rw [hll]
        exact hv (by intro h0; rw [h0] at hx; exact hne (List.length_eq_zero_iff.1 hx))
    have hresQ : ∀ (l x : List K), l.length = m.nq → x.length = a.joint.nq →
        setSeg (resize 0 l (m.nq + a.joint.nq)) e.idx_q x = l ++ x := by
      intro l x hll hx
      apply resize_setSeg
      · rw [hll, hx]
      · intro hne
        rw [hll]
        exact hq (by intro h0; rw [h0] at hx; exact hne (List.length_eq_zero_iff.1 hx))
    unfold addJoint
    simp only [h1, h2, h3, h4, h5, h6, h7, he, ne_eq, not_true_eq_false, if_false]
    refine ⟨e, _, rfl, ?_⟩
    constructor <;> (try rfl)
    · exact hresV _ _ hl.effortLimit h1
    · exact hresV _ _ hl.velocityLimit h2
    · exact hresQ _ _ hl.lowerPositionLimit h3
    · exact hresQ _ _ hl.upperPositionLimit h4
    · exact hresV _ _ hl.armature (by simp)
    · exact hresV _ _ hl.rotorInertia (by simp)
    · exact hresV _ _ hl.rotorGearRatio (by simp)
    · exact hresV _ _ hl.friction h5
    · exact hresV _ _ hl.damping h6
    · simp
    · exact hd
    · exact hid
    · exact hvx
    · exact hpl
  · left
    refine ⟨hA, ?_⟩
    unfold addJoint
    by_cases c1 : a.maxEffort.length = a.joint.nv
    swap; · simp [c1]
    by_cases c2 : a.maxVelocity.length = a.joint.nv
    swap; · simp [c1, c2]
    by_cases c3 : a.minConfig.length = a.joint.nq
    swap; · simp [c1, c2, c3]
    by_cases c4 : a.maxConfig.length = a.joint.nq
    swap; · simp [c1, c2, c3, c4]
    by_cases c5 : a.friction.length = a.joint.nv
    swap; · simp [c1, c2, c3, c4, c5]
    by_cases c6 : a.damping.length = a.joint.nv
    swap; · simp [c1, c2, c3, c4, c5, c6]
    by_cases c7 : a.parent < m.njoints
    swap; · simp [c1, c2, c3, c4, c5, c6, c7]
    exact absurd ⟨c1, c2, c3, c4, c5, c6, c7⟩ hA

theorem inv_added {m m' : Model K P} {a : JointArgs K P} {e : JEntry P} (h : Inv m)
    (hA : ArgsOk m a) (hok : OpOk m (.addJoint a)) (ad : Added m a e m') : Inv m' := by
  obtain ⟨h1, h2, h3, h4, h5, h6, h7⟩ := hA
  have hl := h.lens
  have hpos := hl.pos
  have hparD : ∀ i, i < m.njoints → m'.parents.getD i 0 = m.parents.getD i 0 := fun i hi => by
    rw [ad.parents, getD_append_lt _ _ _ (by rw [hl.parents]; exact hi)]
  have hparN : m'.parents.getD m.njoints 0 = a.parent := by
    rw [ad.parents, getD_append_eq _ _ _ hl.parents.symm]
  have hsupD : ∀ i, i < m.njoints → m'.supports.getD i [] = m.supports.getD i [] := fun i hi => by
    rw [ad.supports, getD_append_lt _ _ _ (by rw [hl.supports]; exact hi)]
  have hsupN : m'.supports.getD m.njoints [] = m.supports.getD a.parent [] ++ [m.njoints] := by
    rw [ad.supports, getD_append_eq _ _ _ hl.supports.symm]
  have hpl : ∀ (n : ℕ) (q : a.joint.mimic = none → e.idx_q = m.nq ∧ e.idx_v = m.nv), True :=
    fun _ _ => trivial
  have nomim : a.joint.nq ≠ 0 ∨ a.joint.nv ≠ 0 → a.joint.mimic = none := by
    intro hne
    cases hm : a.joint.mimic with
    | none => rfl
    | some x => exact absurd (hok x hm) (by rintro ⟨b1, b2, -⟩; rcases hne with c | c <;> contradiction)
  constructor
  case lens =>
    constructor <;> simp only [ad.njoints, ad.nq, ad.nv, ad.nframes, ad.frames, ad.inertias, ad.jointPlacements,
      ad.joints, ad.idx_qs, ad.nqs, ad.idx_vs, ad.nvs, ad.idx_vxs, ad.nvxs, ad.parents, ad.children,
      ad.names, ad.supports, ad.mimicSupports, ad.subtrees, ad.armature, ad.rotorInertia,
      ad.rotorGearRatio, ad.friction, ad.damping, ad.effortLimit, ad.velocityLimit,
      ad.lowerPositionLimit, ad.upperPositionLimit, List.length_append, List.length_singleton,
      List.length_modify, pushSubtrees_length, List.length_replicate, h1, h2, h3, h4, h5, h6,
      hl.inertias, hl.jointPlacements, hl.joints, hl.idx_qs, hl.nqs, hl.idx_vs, hl.nvs, hl.idx_vxs,
      hl.nvxs, hl.parents, hl.children, hl.names, hl.supports, hl.mimicSupports, hl.subtrees,
      hl.nframes, hl.armature, hl.rotorInertia, hl.rotorGearRatio, hl.friction, hl.damping,
      hl.effortLimit, hl.velocityLimit, hl.lowerPositionLimit, hl.upperPositionLimit]
    omega
  case par =>
    intro i hi hin
    rw [ad.njoints] at hin
    rcases Nat.lt_succ_iff_lt_or_eq.1 hin with hlt | rfl
    · rw [hparD i hlt]; exact h.par i hi hlt
    · rw [hparN]; exact h7
  case qsum => rw [ad.nqs, ad.nq]; simp [h.qsum]
  case vsum => rw [ad.nvs, ad.nv]; simp [h.vsum]
  case vxsum => rw [ad.nvxs, ad.nvx]; simp [h.vxsum]
  case q0 => rw [ad.nqs, getD_append_lt _ _ _ (by rw [hl.nqs]; omega)]; exact h.q0
  case v0 => rw [ad.nvs, getD_append_lt _ _ _ (by rw [hl.nvs]; omega)]; exact h.v0
  case vx0 => rw [ad.nvxs, getD_append_lt _ _ _ (by rw [hl.nvxs]; omega)]; exact h.vx0
  case idxq =>
    intro i hin hne
    rw [ad.njoints] at hin
    rcases Nat.lt_succ_iff_lt_or_eq.1 hin with hlt | rfl
    · rw [ad.nqs, getD_append_lt _ _ _ (by rw [hl.nqs]; exact hlt)] at hne
      rw [ad.idx_qs, ad.nqs, getD_append_lt _ _ _ (by rw [hl.idx_qs]; exact hlt),
        take_append_sum _ _ _ (by rw [hl.nqs]; omega)]
      exact h.idxq i hlt hne
    · rw [ad.nqs, getD_append_eq _ _ _ hl.nqs.symm] at hne
      rw [ad.idx_qs, ad.nqs, getD_append_eq _ _ _ hl.idx_qs.symm,
        take_append_sum _ _ _ (by rw [hl.nqs]), List.take_of_length_le (by rw [hl.nqs]), h.qsum]
      exact (ad.plain (nomim (Or.inl hne))).1
  case idxv =>
    intro i hin hne
    rw [ad.njoints] at hin
    rcases Nat.lt_succ_iff_lt_or_eq.1 hin with hlt | rfl
    · rw [ad.nvs, getD_append_lt _ _ _ (by rw [hl.nvs]; exact hlt)] at hne
      rw [ad.idx_vs, ad.nvs, getD_append_lt _ _ _ (by rw [hl.idx_vs]; exact hlt),
        take_append_sum _ _ _ (by rw [hl.nvs]; omega)]
      exact h.idxv i hlt hne
    · rw [ad.nvs, getD_append_eq _ _ _ hl.nvs.symm] at hne
      rw [ad.idx_vs, ad.nvs, getD_append_eq _ _ _ hl.idx_vs.symm,
        take_append_sum _ _ _ (by rw [hl.nvs]), List.take_of_length_le (by rw [hl.nvs]), h.vsum]
      exact (ad.plain (nomim (Or.inr hne))).2
  case idxvx =>
    intro i hin
    rw [ad.njoints] at hin
    rcases Nat.lt_succ_iff_lt_or_eq.1 hin with hlt | rfl
    · rw [ad.idx_vxs, ad.nvxs, getD_append_lt _ _ _ (by rw [hl.idx_vxs]; exact hlt),
        take_append_sum _ _ _ (by rw [hl.nvxs]; omega)]
      exact h.idxvx i hlt
    · rw [ad.idx_vxs, ad.nvxs, getD_append_eq _ _ _ hl.idx_vxs.symm,
        take_append_sum _ _ _ (by rw [hl.nvxs]), List.take_of_length_le (by rw [hl.nvxs]), h.vxsum]
      exact ad.idx_vx
  case ent =>
    intro i e' he
    rw [ad.joints] at he
    by_cases hlt : i < m.njoints
    · rw [List.getElem?_append_left (by rw [hl.joints]; exact hlt)] at he
      have := h.ent i e' he
      rw [ad.idx_qs, ad.idx_vs, ad.idx_vxs, ad.nqs, ad.nvs, ad.nvxs,
        List.getElem?_append_left (by rw [hl.idx_qs]; exact hlt),
        List.getElem?_append_left (by rw [hl.idx_vs]; exact hlt),
        List.getElem?_append_left (by rw [hl.idx_vxs]; exact hlt),
        List.getElem?_append_left (by rw [hl.nqs]; exact hlt),
        List.getElem?_append_left (by rw [hl.nvs]; exact hlt),
        List.getElem?_append_left (by rw [hl.nvxs]; exact hlt),
        take_append_sum _ _ _ (by rw [hl.nqs]; omega), take_append_sum _ _ _ (by rw [hl.nvs]; omega)]
      exact this
    · rw [List.getElem?_append_right (by rw [hl.joints]; omega)] at he
      have hz : i - m.joints.length = 0 := by
        by_contra hne
        rw [List.getElem?_eq_none (by simp; omega)] at he
        simp at he
      rw [hz] at he
      simp at he
      subst he
      have hi : i = m.njoints := by rw [hl.joints] at hz; omega
      subst hi
      refine ⟨ad.id, ?_, ?_, ?_, ?_, ?_, ?_, ?_⟩
      · rw [ad.idx_qs, ← hl.idx_qs]; simp
      · rw [ad.idx_vs, ← hl.idx_vs]; simp
      · rw [ad.idx_vxs, ← hl.idx_vxs]; simp
      · rw [ad.nqs, ad.desc, ← hl.nqs]; simp
      · rw [ad.nvs, ad.desc, ← hl.nvs]; simp
      · rw [ad.nvxs, ad.desc, ← hl.nvxs]; simp
      · rw [ad.desc]
        intro hm
        rw [ad.nqs, ad.nvs, take_append_sum _ _ _ (by rw [hl.nqs]),
          take_append_sum _ _ _ (by rw [hl.nvs]), List.take_of_length_le (by rw [hl.nqs]),
          List.take_of_length_le (by rw [hl.nvs]), h.qsum, h.vsum]
        exact ad.plain hm
  case chi =>
    intro p hp
    rw [ad.njoints] at hp ⊢
    rw [ad.children, getD_modify _ _ _ _ _ (by simp [hl.children]; omega), List.range_succ,
      List.filter_append]
    have hnew : ((m.children ++ [[]]).getD p [] : List ℕ)
        = (List.range m.njoints).filter (fun i => 1 ≤ i ∧ m'.parents.getD i 0 = p) := by
      have e1 : (List.range m.njoints).filter (fun i => 1 ≤ i ∧ m'.parents.getD i 0 = p)
          = (List.range m.njoints).filter (fun i => 1 ≤ i ∧ m.parents.getD i 0 = p) := by
        apply List.filter_congr
        intro i hi
        rw [hparD i (List.mem_range.1 hi)]
      rw [e1]
      rcases Nat.lt_succ_iff_lt_or_eq.1 hp with hlt | rfl
      · rw [getD_append_lt _ _ _ (by rw [hl.children]; exact hlt)]; exact h.chi p hlt
      · rw [getD_append_eq _ _ _ hl.children.symm, eq_comm, List.filter_eq_nil_iff]
        intro i hi
        have hi' := List.mem_range.1 hi
        simp only [decide_eq_true_eq, not_and]
        intro h1i
        have := h.par i h1i hi'
        omega
    rw [hnew]
    by_cases hpa : a.parent = p
    · rw [if_pos hpa]
      congr 1
      rw [eq_comm]
      simp only [List.filter_cons, List.filter_nil, hparN, hpa]
      simp; omega
    · rw [if_neg hpa]
      simp only [List.filter_cons, List.filter_nil, hparN, hpa]
      simp
  case sup0 => rw [hsupD 0 (by omega)]; exact h.sup0
  case sup =>
    intro j hj hjn
    rw [ad.njoints] at hjn
    rcases Nat.lt_succ_iff_lt_or_eq.1 hjn with hlt | rfl
    · have := h.par j hj hlt
      rw [hsupD j hlt, hparD j hlt, hsupD _ (by omega)]
      exact h.sup j hj hlt
    · rw [hsupN, hparN, hsupD _ h7]
  case sub =>
    intro i hi
    rw [ad.njoints] at hi ⊢
    have hle := mem_supports_le h
    rw [ad.subtrees, pushSubtrees_getD (m.parents ++ [a.parent]) (fun j => m.supports.getD j [])
      m.njoints m.njoints ?_ h.sup0 ?_ hle (m.njoints + 1) a.parent _ h7 (by omega)
      (by simp [hl.subtrees]) i (by simp [hl.subtrees]; omega)]
    · rw [List.range_succ, List.filter_append]
      have e1 : (List.range m.njoints).filter (fun j => 1 ≤ j ∧ i ∈ m'.supports.getD j [])
          = (List.range m.njoints).filter (fun j => 1 ≤ j ∧ i ∈ m.supports.getD j []) := by
        apply List.filter_congr
        intro j hj
        rw [hsupD j (List.mem_range.1 hj)]
      rw [e1]
      simp only [List.filter_cons, List.filter_nil, hsupN, List.mem_append, List.mem_singleton]
      rcases Nat.lt_succ_iff_lt_or_eq.1 hi with hlt | rfl
      · rw [getD_append_lt _ _ _ (by rw [hl.subtrees]; exact hlt), h.sub i hlt]
        have hne : i ≠ m.njoints := by omega
        by_cases hmem : i ∈ m.supports.getD a.parent []
        · simp only [hmem, if_true, hne, or_false, true_or]
          simp; omega
        · simp only [hmem, if_false, hne, or_self]
          simp
      · have hnm : m.njoints ∉ m.supports.getD a.parent [] := by
          intro hm
          have := hle _ h7 _ hm
          omega
        rw [if_neg hnm, getD_append_eq _ _ _ hl.subtrees.symm]
        have e2 : (List.range m.njoints).filter (fun j => 1 ≤ j ∧ m.njoints ∈ m.supports.getD j []) = [] := by
          rw [List.filter_eq_nil_iff]
          intro j hj
          have hj' := List.mem_range.1 hj
          simp only [decide_eq_true_eq, not_and]
          intro _ hm
          have := hle j hj' _ hm
          omega
        rw [e2]
        simp; omega
    · intro j hj hjn
      rw [getD_append_lt _ _ _ (by rw [hl.parents]; exact hjn)]
      exact h.par j hj hjn
    · intro j hj hjn
      rw [getD_append_lt _ _ _ (by rw [hl.parents]; exact hjn)]
      exact h.sup j hj hjn

theorem inv_step {m m' : Model K P} {op : Op K P} (h : Inv m) (hok : OpOk m op)
    (hs : m.step op = some m') : Inv m' := by
  cases op with
  | addJoint a =>
    rcases addJoint_cases m a h hok with ⟨-, he⟩ | ⟨hA, e, m2, he, ad⟩
    · simp only [step, he, Res.state, Option.some.injEq] at hs; exact hs ▸ h
    · simp only [step, he, Res.state, Option.some.injEq] at hs; exact hs ▸ inv_added h hA hok ad
  | addFrame f b => exact inv_addFrame h f b hs
  | addJointFrame j p => exact inv_addJointFrame h j p hs
  | appendBody j Y M => exact inv_appendBody h j Y M hs
  | addBodyFrame s j M p => exact inv_addBodyFrame h s j M p hs

theorem Reach.inv {p0 : P} {m : Model K P} (h : Reach p0 m) : Inv m := by
  induction h with
  | init => exact inv_empty p0
  | step _ hok hs ih => exact inv_step ih hok hs

end Model
end Pin
