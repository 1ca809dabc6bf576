import Verif.Model.ReachLemmas
import Verif.Algo.World

/-!
# From a constructed `Model` to the tables the algorithms read

`Model.toSys` reads the tables of a `Model` whose joint payloads are joint types (`Joint K`). The
hypotheses of the algorithm theorems (`Sys.WF`, `Sys.Packed`) hold for every reachable model.
-/

namespace Pin
open Finset
variable {K : Type*} [Field K] [LinearOrder K] [HasEps K]

theorem sum_take (l : List ℕ) (i : ℕ) (hi : i ≤ l.length) :
    (l.take i).sum = ∑ j ∈ range i, l.getD j 0 := by
  induction i with
  | zero => simp
  | succ i ih =>
    have hlt : i < l.length := by omega
    rw [sum_range_succ, ← ih (by omega), List.take_succ_eq_append_getElem hlt, List.sum_append]
    simp [List.getD, List.getElem?_eq_getElem hlt]

namespace Model

/-- The tables read by the algorithms (`multibody/model.hpp:96-221`); `i`-th joint through
`model.joints[i]`, whose indexes are `joint-model-base.hpp:137-175`. `j0` is never looked at. -/
def toSys (m : Model K (Joint K)) (j0 : Joint K) (g : Motion K) : Sys K where
  n := m.njoints
  par i := m.parents.getD i 0
  pl i := m.jointPlacements.getD i 1
  Y i := m.inertias.getD i 0
  jt i := (m.joints[i]?.map (·.desc.payload)).getD j0
  iq i := (m.joints[i]?.map (·.idx_q)).getD 0
  iv i := (m.joints[i]?.map (·.idx_v)).getD 0
  nv := m.nv
  arm i := m.armature.getD i 0
  grav := g

/-- What the type of a joint guarantees about its description: the sizes are those of the joint type, and
a mimic joint keeps the velocity index of a joint of the model of the same size
(`joint/joint-mimic.hpp:555-620`). -/
def JointsOk (m : Model K (Joint K)) : Prop :=
  ∀ i e, 1 ≤ i → m.joints[i]? = some e →
    e.desc.payload.nv = e.desc.nvx ∧ (e.desc.mimic = none → e.desc.nvx = e.desc.nv) ∧
    (∀ x, e.desc.mimic = some x → ∃ p e', 1 ≤ p ∧ m.joints[p]? = some e' ∧ e'.desc.mimic = none ∧
      e.idx_v = e'.idx_v ∧ e.desc.nvx = e'.desc.nv)

/-- no joint mimics another one -/
def NoMimic (m : Model K (Joint K)) : Prop :=
  ∀ i e, 1 ≤ i → m.joints[i]? = some e → e.desc.mimic = none

variable {m : Model K (Joint K)}

theorem toSys_parOk (h : Inv m) (j0 : Joint K) (g : Motion K) :
    ParOk (m.toSys j0 g).par (m.toSys j0 g).n :=
  ⟨h.lens.pos, fun i h1 hi => h.par i h1 hi⟩

theorem seg_le (h : Inv m) {i : ℕ} {e : JEntry (Joint K)} (hi : i < m.njoints) (he : m.joints[i]? = some e)
    (hm : e.desc.mimic = none) : e.idx_v + e.desc.nv ≤ m.nv := by
  obtain ⟨-, -, -, -, -, hv, -, hidx⟩ := h.ent i e he
  obtain ⟨-, e2⟩ := hidx hm
  rw [e2, ← h.vsum]
  have hl : i < m.nvs.length := by rw [h.lens.nvs]; exact hi
  have : e.desc.nv = m.nvs[i] := by
    rw [List.getElem?_eq_getElem hl] at hv; exact (Option.some.inj hv).symm
  rw [this, ← List.sum_take_succ]
  conv_rhs => rw [← List.take_append_drop (i + 1) m.nvs, List.sum_append]
  exact Nat.le_add_right _ _

/-- the tables of a reachable model satisfy `Sys.WF` -/
theorem toSys_wf (h : Inv m) (hj : m.JointsOk) (j0 : Joint K) (g : Motion K) : (m.toSys j0 g).WF := by
  refine ⟨toSys_parOk h j0 g, ?_⟩
  intro i h1 hi
  have hl : i < m.joints.length := by rw [h.lens.joints]; exact hi
  have he : m.joints[i]? = some m.joints[i] := List.getElem?_eq_getElem hl
  obtain ⟨e1, e2, e3⟩ := hj i _ h1 he
  change ((m.joints[i]?.map (·.idx_v)).getD 0) + ((m.joints[i]?.map (·.desc.payload)).getD j0).nv ≤ m.nv
  rw [he]
  change m.joints[i].idx_v + m.joints[i].desc.payload.nv ≤ m.nv
  rw [e1]
  cases hm : m.joints[i].desc.mimic with
  | none => rw [e2 hm]; exact seg_le h hi he hm
  | some x =>
    obtain ⟨p, e', hp1, hp, hpm, hv, hx⟩ := e3 x hm
    rw [hv, hx]
    have : p < m.joints.length := by
      by_contra hc
      rw [List.getElem?_eq_none (by omega)] at hp; cases hp
    exact seg_le h (by rw [h.lens.joints] at this; exact this) hp hpm

/-- without mimic joints the velocity segments are packed -/
theorem toSys_packed (h : Inv m) (hj : m.JointsOk) (hn : m.NoMimic) (j0 : Joint K) (g : Motion K) :
    (m.toSys j0 g).Packed := by
  have key : ∀ i, 1 ≤ i → i < m.njoints →
      (m.toSys j0 g).jnv i = m.nvs.getD i 0 ∧ (m.toSys j0 g).iv i = (m.nvs.take i).sum := by
    intro i h1 hi
    have hl : i < m.joints.length := by rw [h.lens.joints]; exact hi
    have he : m.joints[i]? = some m.joints[i] := List.getElem?_eq_getElem hl
    obtain ⟨e1, e2, -⟩ := hj i _ h1 he
    have hm := hn i _ h1 he
    obtain ⟨-, -, -, -, -, hv, -, hidx⟩ := h.ent i _ he
    constructor
    · change ((m.joints[i]?.map (·.desc.payload)).getD j0).nv = _
      rw [he]
      change m.joints[i].desc.payload.nv = _
      rw [e1, e2 hm, List.getD, hv]; rfl
    · change ((m.joints[i]?.map (·.idx_v)).getD 0) = _
      rw [he]
      exact (hidx hm).2
  have hs : ∀ i, 1 ≤ i → i ≤ m.njoints → (m.nvs.take i).sum = ∑ j ∈ Ico 1 i, (m.toSys j0 g).jnv j := by
    intro i h1 hi
    rw [sum_take _ _ (by rw [h.lens.nvs]; exact hi), range_eq_Ico, sum_eq_sum_Ico_succ_bot (by omega), h.v0,
      zero_add]
    apply sum_congr rfl
    intro j hj
    rw [mem_Ico] at hj
    exact ((key j (by omega) (by omega)).1).symm
  refine ⟨toSys_parOk h j0 g, fun i h1 hi => ?_, ?_⟩
  · rw [(key i h1 hi).2, hs i h1 (le_of_lt hi)]
  · change m.nv = ∑ j ∈ Ico 1 m.njoints, _
    rw [← hs _ h.lens.pos le_rfl, ← h.vsum, List.take_of_length_le (le_of_eq h.lens.nvs)]
end Model
end Pin
