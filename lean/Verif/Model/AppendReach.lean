import Verif.Model.AppendRun
import Verif.Model.AppendDyn
import Verif.Model.ReduceReach

/-! # What the invariant of `appendModel` says about the result -/

set_option linter.unusedSectionVars false
set_option linter.unusedSimpArgs false
set_option linter.unusedVariables false

namespace Pin
open Finset
namespace Model
section
variable {K P : Type*} [Field K] [LinearOrder K] [IsStrictOrderedRing K] [HasEps K]

/-- the invariant at the end -/
def AEnd (A B r : Model K P) (fr : Frame K) (aMb : SE3 K) : Prop :=
  AInv (src A B) (bases fr) (places fr aMb) (fun _ => true) (order A B fr.parentJoint) (fun b i => i < (src A B b).njoints) r

variable {A B r : Model K P} {fr : Frame K} {aMb : SE3 K}

theorem mem_order (hA : Inv A) (hB : Inv B) (hp : fr.parentJoint < A.njoints) {b : Bool} {i : ℕ} :
    (b, i) ∈ order A B fr.parentJoint ↔ 1 ≤ i ∧ i < (src A B b).njoints := by
  have hpA : fr.parentJoint < A.joints.length := by rw [hA.lens.joints]; exact hp
  simp only [order, List.mem_append, List.mem_map, Prod.mk.injEq]
  cases b
  · change _ ↔ 1 ≤ i ∧ i < A.njoints
    rw [← hA.lens.joints]
    constructor
    · rintro ((⟨j, hj, -, rfl⟩ | ⟨j, hj, h, -⟩) | ⟨j, hj, -, rfl⟩)
      · exact mem_before hpA hj
      · cases h
      · exact mem_after hj
    · rintro ⟨h1, h2⟩
      rcases mem_before_or (p := fr.parentJoint) h1 h2 with e | e
      · exact Or.inl (Or.inl ⟨i, e, rfl, rfl⟩)
      · exact Or.inr ⟨i, e, rfl, rfl⟩
  · change _ ↔ 1 ≤ i ∧ i < B.njoints
    rw [← hB.lens.joints]
    constructor
    · rintro ((⟨j, hj, h, rfl⟩ | ⟨j, hj, -, rfl⟩) | ⟨j, hj, h, rfl⟩)
      · cases h
      · rw [List.mem_range'_1] at hj; omega
      · cases h
    · rintro ⟨h1, h2⟩
      exact Or.inl (Or.inr ⟨i, by rw [List.mem_range'_1]; omega, rfl, rfl⟩)

theorem order_length (hA : Inv A) (hB : Inv B) (hp : fr.parentJoint < A.njoints) :
    (order A B fr.parentJoint).length + 2 = A.njoints + B.njoints := by
  have := before_after_length (A := A) (p := fr.parentJoint) (by rw [hA.lens.joints]; exact hp)
  rw [hA.lens.joints] at this
  have h0 := hB.lens.pos
  have h1 := hB.lens.joints
  simp only [order, List.length_append, List.length_map, List.length_range']
  omega

/-- position of the joints -/
theorem AEnd.id (h : AEnd A B r fr aMb) {t : ℕ} {x : Bool × ℕ} (ht : (order A B fr.parentJoint)[t]? = some x) :
    r.getJointId ((src A B x.1).name x.2) = t + 1 := by
  refine getJointId_eq h.nd ?_
  rw [h.names, List.getElem?_cons_succ, List.getElem?_map, ht]
  rfl

theorem AEnd.pos (h : AEnd A B r fr aMb) (hA : Inv A) (hB : Inv B) (hp : fr.parentJoint < A.njoints) {b : Bool} {i : ℕ}
    (h1 : 1 ≤ i) (hi : i < (src A B b).njoints) : ∃ t, (order A B fr.parentJoint)[t]? = some (b, i) ∧
      r.getJointId ((src A B b).name i) = t + 1 ∧ t + 1 < r.njoints := by
  obtain ⟨t, ht⟩ := List.getElem?_of_mem ((mem_order hA hB hp).2 ⟨h1, hi⟩)
  refine ⟨t, ht, h.id ht, ?_⟩
  rw [h.nj]
  have : t < (order A B fr.parentJoint).length := by
    by_contra hc
    rw [List.getElem?_eq_none (by omega)] at ht; cases ht
  omega

/-- the joint of the frame keeps its index -/
theorem AEnd.inA_base (h : AEnd A B r fr aMb) : inA A r fr.parentJoint = fr.parentJoint := by
  unfold inA
  split
  · rename_i hz; exact hz.symm
  · rename_i hz
    refine getJointId_eq h.nd ?_
    obtain ⟨n, hn⟩ := Nat.exists_eq_succ_of_ne_zero hz
    rw [h.names, hn, List.getElem?_cons_succ, List.getElem?_map, order, List.append_assoc, List.getElem?_append_left,
      List.getElem?_map, before_getElem]
    · rfl
    · have : n < (A.jointsBefore n.succ).length := by
        by_contra hc
        have := before_getElem (A := A) (n := n)
        rw [List.getElem?_eq_none (by omega)] at this; cases this
      simpa using this

theorem AEnd.tgt_false (h : AEnd A B r fr aMb) (i : ℕ) : tgt (src A B) (bases fr) r false i = inA A r i := rfl
theorem AEnd.tgt_true (h : AEnd A B r fr aMb) (i : ℕ) : tgt (src A B) (bases fr) r true i = inB A B r fr.parentJoint i := by
  unfold tgt inB
  split
  · exact h.inA_base.symm
  · rfl

theorem inA_pos {i : ℕ} (h1 : 1 ≤ i) : inA A r i = r.getJointId (A.name i) := if_neg (by omega)
theorem inB_pos {i p : ℕ} (h1 : 1 ≤ i) : inB A B r p i = r.getJointId (B.name i) := if_neg (by omega)

theorem place_false {i : ℕ} {X : SE3 K} : place (places fr aMb) false i X = X := by
  unfold place
  split
  · exact SE3.one_mul X
  · rfl

theorem AEnd.merged (h : AEnd A B r fr aMb) (hA : Inv A) (hB : Inv B) (hp : fr.parentJoint < A.njoints) :
    Merged A B r fr aMb := by
  have ho := order_length (A := A) (B := B) hA hB hp
  refine ⟨by rw [h.nj]; omega, fun i h1 hi => ?_, fun i h1 hi => ?_, fun i j h1 hi j1 hj he => ?_, fun i j h1 hi j1 hj he => ?_,
    fun i j h1 hi j1 hj he => ?_, fun k h1 hk => ?_, fun i h1 hi => ?_, fun i h1 hi => ?_⟩
  · obtain ⟨t, -, h2, h3⟩ := h.pos hA hB hp (b := false) h1 hi
    rw [inA_pos h1]
    change r.getJointId (A.name i) = t + 1 at h2
    omega
  · obtain ⟨t, -, h2, h3⟩ := h.pos hA hB hp (b := true) h1 hi
    rw [inB_pos h1]
    change r.getJointId (B.name i) = t + 1 at h2
    omega
  · obtain ⟨t, ht, h2, -⟩ := h.pos hA hB hp (b := false) h1 hi
    obtain ⟨t', ht', h2', -⟩ := h.pos hA hB hp (b := false) j1 hj
    rw [inA_pos h1, inA_pos j1] at he
    have e : t = t' := by have := h2.symm.trans (he.trans h2'); omega
    rw [e, ht'] at ht
    exact (congrArg Prod.snd (Option.some.inj ht)).symm
  · obtain ⟨t, ht, h2, -⟩ := h.pos hA hB hp (b := true) h1 hi
    obtain ⟨t', ht', h2', -⟩ := h.pos hA hB hp (b := true) j1 hj
    rw [inB_pos h1, inB_pos j1] at he
    have e : t = t' := by have := h2.symm.trans (he.trans h2'); omega
    rw [e, ht'] at ht
    exact (congrArg Prod.snd (Option.some.inj ht)).symm
  · obtain ⟨t, ht, h2, -⟩ := h.pos hA hB hp (b := false) h1 hi
    obtain ⟨t', ht', h2', -⟩ := h.pos hA hB hp (b := true) j1 hj
    rw [inA_pos h1, inB_pos j1] at he
    have e : t = t' := by have := h2.symm.trans (he.trans h2'); omega
    rw [e, ht'] at ht
    cases (congrArg Prod.fst (Option.some.inj ht))
  · obtain ⟨⟨b, i⟩, hx⟩ : ∃ x, (order A B fr.parentJoint)[k - 1]? = some x :=
      ⟨_, List.getElem?_eq_getElem (by rw [h.nj] at hk; omega)⟩
    have hm := (mem_order hA hB hp).1 (List.mem_of_getElem? hx)
    have hid := h.id hx
    dsimp only at hid
    cases b
    · exact Or.inl ⟨i, hm.1, hm.2, by rw [inA_pos hm.1]; exact hid.trans (by omega)⟩
    · exact Or.inr ⟨i, hm.1, hm.2, by rw [inB_pos hm.1]; exact hid.trans (by omega)⟩
  · obtain ⟨t, ht, h2, -⟩ := h.pos hA hB hp (b := false) h1 hi
    obtain ⟨-, -, a, -, b, c⟩ := h.kept t _ ht
    rw [h.tgt_false] at b
    rw [place_false] at c
    rw [inA_pos h1]
    change r.getJointId (A.name i) = t + 1 at h2
    rw [h2]
    exact ⟨a, b, c⟩
  · obtain ⟨t, ht, h2, -⟩ := h.pos hA hB hp (b := true) h1 hi
    obtain ⟨-, -, a, -, b, c⟩ := h.kept t _ ht
    rw [h.tgt_true] at b
    rw [inB_pos h1]
    change r.getJointId (B.name i) = t + 1 at h2
    rw [h2]
    exact ⟨a, b, c⟩

/-- mimic joints -/
theorem AEnd.mimic (h : AEnd A B r fr aMb) (H : AHyp (src A B)) (hA : Inv A) (hB : Inv B) (hp : fr.parentJoint < A.njoints) {b : Bool}
    {i : ℕ} {e : JEntry P} {y : ℕ × ℕ × ℕ} (h1 : 1 ≤ i) (hi : i < (src A B b).njoints) (he : (src A B b).joints[i]? = some e)
    (hy : e.desc.mimic = some y) : ∃ o q : JEntry P, r.joints[r.getJointId ((src A B b).name i)]? = some o ∧
      r.joints[r.getJointId ((src A B b).name y.1)]? = some q ∧
      o.desc.mimic = some (r.getJointId ((src A B b).name y.1), q.idx_q, q.idx_v) ∧ o.idx_q = q.idx_q ∧ o.idx_v = q.idx_v := by
  obtain ⟨t, ht, h2, -⟩ := h.pos hA hB hp (b := b) h1 hi
  obtain ⟨o, q, -, a, c⟩ := h.mim t _ e y ht he hy
  rw [h2]
  exact ⟨o, q, a, c⟩

/-! ## inertias -/

theorem AEnd.own_at (h : AEnd A B r fr aMb) {t : ℕ} {x : Bool × ℕ} (ht : (order A B fr.parentJoint)[t]? = some x) :
    own (src A B) (order A B fr.parentJoint) (t + 1) = (src A B x.1).inertia x.2 := by
  rw [own, if_neg (by omega), Nat.add_sub_cancel, ht]; rfl

/-- `f 0` at the universe, `f 1` at the joint of the frame -/
theorem extra_eq {α : Type*} [AddCommMonoid α] (x : Bool → α) (k : ℕ) :
    extra (bases fr) (fun _ => true) x k = (if k = 0 then x false else 0) + (if k = fr.parentJoint then x true else 0) := by
  simp [extra, bases]

theorem AEnd.massA (h : AEnd A B r fr aMb) (hA : Inv A) (hB : Inv B) (hp : fr.parentJoint < A.njoints) {i : ℕ} (hi : i < A.njoints) :
    (r.inertia (inA A r i)).mass = (A.inertia i).mass + if i = fr.parentJoint then (B.inertia 0).mass else 0 := by
  have M := h.merged hA hB hp
  have hb := h.inA_base
  rcases Nat.eq_zero_or_pos i with rfl | h1
  · have e0 : inA A r 0 = 0 := rfl
    rw [e0, h.mass 0 h.inv.lens.pos, extra_eq]
    have o : own (src A B) (order A B fr.parentJoint) 0 = 0 := rfl
    rw [o, zero_inertia_mass, zero_add, if_pos rfl]
    rfl
  · obtain ⟨t, ht, h2, h3⟩ := h.pos hA hB hp (b := false) h1 hi
    have e : inA A r i = t + 1 := (inA_pos h1).trans h2
    rw [e, h.mass _ h3, h.own_at ht, extra_eq, if_neg (by omega), zero_add]
    have : (t + 1 = fr.parentJoint) ↔ i = fr.parentJoint := by
      rw [← e]
      constructor
      · intro e'
        rcases Nat.eq_zero_or_pos fr.parentJoint with hz | hz
        · have := (M.rangeA i h1 hi).1; omega
        · exact M.injA i _ h1 hi hz hp (e'.trans hb.symm)
      · rintro rfl; exact hb
    simp only [this]
    rfl

theorem AEnd.massB (h : AEnd A B r fr aMb) (hA : Inv A) (hB : Inv B) (hp : fr.parentJoint < A.njoints) {j : ℕ} (h1 : 1 ≤ j)
    (hj : j < B.njoints) : (r.inertia (inB A B r fr.parentJoint j)).mass = (B.inertia j).mass := by
  have M := h.merged hA hB hp
  have hb := h.inA_base
  obtain ⟨t, ht, h2, h3⟩ := h.pos hA hB hp (b := true) h1 hj
  have e : inB A B r fr.parentJoint j = t + 1 := (inB_pos h1).trans h2
  rw [e, h.mass _ h3, h.own_at ht, extra_eq, if_neg (by omega), zero_add, if_neg, add_zero]
  · rfl
  · rw [← e]
    intro e'
    rcases Nat.eq_zero_or_pos fr.parentJoint with hz | hz
    · have := (M.rangeB j h1 hj).1; omega
    · exact M.disjoint _ j hz hp h1 hj (hb.trans e'.symm)

theorem clean_of (hA : NoFrameInertia A) (hB : NoFrameInertia B) (mA : MassesFine A) (mB : MassesFine B) : Clean (src A B) :=
  ⟨fun b => by cases b; exact hA; exact hB, fun b => by cases b; exact mA; exact mB⟩

theorem AEnd.matA (h : AEnd A B r fr aMb) (hA : Inv A) (hB : Inv B) (hp : fr.parentJoint < A.njoints) (hc : Clean (src A B))
    {i : ℕ} (hi : i < A.njoints) :
    (r.inertia (inA A r i)).matrix = (A.inertia i).matrix +
      if i = fr.parentJoint then ((B.inertia 0).act (fr.placement * aMb)).matrix else 0 := by
  have M := h.merged hA hB hp
  have hb := h.inA_base
  rcases Nat.eq_zero_or_pos i with rfl | h1
  · have e0 : inA A r 0 = 0 := rfl
    rw [e0, (h.mat hc 0 h.inv.lens.pos).2, extra_eq]
    have o : own (src A B) (order A B fr.parentJoint) 0 = 0 := rfl
    rw [o, zero_inertia_matrix, zero_add, if_pos rfl]
    congr 1
    exact act_one_matrix (A.inertia 0)
  · obtain ⟨t, ht, h2, h3⟩ := h.pos hA hB hp (b := false) h1 hi
    have e : inA A r i = t + 1 := (inA_pos h1).trans h2
    rw [e, (h.mat hc _ h3).2, h.own_at ht, extra_eq, if_neg (by omega), zero_add]
    have : (t + 1 = fr.parentJoint) ↔ i = fr.parentJoint := by
      rw [← e]
      constructor
      · intro e'
        rcases Nat.eq_zero_or_pos fr.parentJoint with hz | hz
        · have := (M.rangeA i h1 hi).1; omega
        · exact M.injA i _ h1 hi hz hp (e'.trans hb.symm)
      · rintro rfl; exact hb
    simp only [this]
    rfl

theorem AEnd.matB (h : AEnd A B r fr aMb) (hA : Inv A) (hB : Inv B) (hp : fr.parentJoint < A.njoints) (hc : Clean (src A B))
    {j : ℕ} (h1 : 1 ≤ j) (hj : j < B.njoints) : (r.inertia (inB A B r fr.parentJoint j)).matrix = (B.inertia j).matrix := by
  have M := h.merged hA hB hp
  have hb := h.inA_base
  obtain ⟨t, ht, h2, h3⟩ := h.pos hA hB hp (b := true) h1 hj
  have e : inB A B r fr.parentJoint j = t + 1 := (inB_pos h1).trans h2
  rw [e, (h.mat hc _ h3).2, h.own_at ht, extra_eq, if_neg (by omega), zero_add, if_neg, add_zero]
  · rfl
  · rw [← e]
    intro e'
    rcases Nat.eq_zero_or_pos fr.parentJoint with hz | hz
    · have := (M.rangeB j h1 hj).1; omega
    · exact M.disjoint _ j hz hp h1 hj (hb.trans e'.symm)

end

/-- a sum over the joints of the result -/
theorem Merged.sum {K P M : Type*} [Field K] [LinearOrder K] [HasEps K] [AddCommMonoid M] {A B r : Model K P} {fr : Frame K}
    {aMb : SE3 K} (h : Merged A B r fr aMb) (f : ℕ → M) :
    ∑ k ∈ Ico 1 r.njoints, f k = ∑ i ∈ Ico 1 A.njoints, f (inA A r i) + ∑ j ∈ Ico 1 B.njoints, f (inB A B r fr.parentJoint j) := by
  classical
  have e : Ico 1 r.njoints = (Ico 1 A.njoints).image (inA A r) ∪ (Ico 1 B.njoints).image (inB A B r fr.parentJoint) := by
    ext k
    simp only [mem_union, mem_image, mem_Ico]
    constructor
    · rintro ⟨h1, h2⟩
      rcases h.cover k h1 h2 with ⟨i, a, b, c⟩ | ⟨i, a, b, c⟩
      · exact Or.inl ⟨i, ⟨a, b⟩, c⟩
      · exact Or.inr ⟨i, ⟨a, b⟩, c⟩
    · rintro (⟨i, ⟨a, b⟩, rfl⟩ | ⟨i, ⟨a, b⟩, rfl⟩)
      · exact h.rangeA i a b
      · exact h.rangeB i a b
  rw [e, sum_union, sum_image, sum_image]
  · intro i hi j hj he
    simp only [coe_Ico, Set.mem_Ico] at hi hj
    exact h.injB i j hi.1 hi.2 hj.1 hj.2 he
  · intro i hi j hj he
    simp only [coe_Ico, Set.mem_Ico] at hi hj
    exact h.injA i j hi.1 hi.2 hj.1 hj.2 he
  · rw [disjoint_left]
    intro k hk hk'
    simp only [mem_image, mem_Ico] at hk hk'
    obtain ⟨i, ⟨a, b⟩, rfl⟩ := hk
    obtain ⟨j, ⟨c, d⟩, e⟩ := hk'
    exact h.disjoint i j a b c d e.symm

/-! ## trees -/
section
variable {K : Type*} [Field K] [LinearOrder K] [IsStrictOrderedRing K] [HasEps K] {A B r : Model K (Joint K)} {fr : Frame K}
  {aMb : SE3 K}

theorem Merged.embA (h : Merged A B r fr aMb) (hA : Inv A) (hr : Inv r) (j0 : Joint K) (g : Motion K) :
    Sys.Embedded (A.toSys j0 g) (r.toSys j0 g) (inA A r) 1 := by
  refine ⟨toSys_parOk hA j0 g, toSys_parOk hr j0 g, h.rangeA, fun i h1 hi => (h.jointA i h1 hi).2.1, fun i h1 hi => ?_,
    fun i h1 hi => ?_⟩
  · rw [SE3.one_mul, ite_self]
    exact (h.jointA i h1 hi).2.2
  · obtain ⟨e, o, he, ho, hp, -⟩ := (h.jointA i h1 hi).1.entry
    rw [(toSys_jt he j0 g).1, (toSys_jt ho j0 g).1, hp]

theorem Merged.embB (h : Merged A B r fr aMb) (hB : Inv B) (hr : Inv r) (j0 : Joint K) (g g' : Motion K) :
    Sys.Embedded (B.toSys j0 g) (r.toSys j0 g') (inB A B r fr.parentJoint) (fr.placement * aMb) := by
  refine ⟨toSys_parOk hB j0 g, toSys_parOk hr j0 g', h.rangeB, fun i h1 hi => (h.jointB i h1 hi).2.1, fun i h1 hi => ?_,
    fun i h1 hi => ?_⟩
  · exact (h.jointB i h1 hi).2.2
  · obtain ⟨e, o, he, ho, hp, -⟩ := (h.jointB i h1 hi).1.entry
    rw [(toSys_jt he j0 g).1, (toSys_jt ho j0 g').1, hp]

theorem AEnd.arm0 (h : AEnd A B r fr aMb) (j0 : Joint K) (g : Motion K) (k : ℕ) : (r.toSys j0 g).arm k = 0 := by
  change r.armature.getD _ 0 = 0
  rw [List.getD]
  cases hx : r.armature[k]? with
  | none => rfl
  | some x => exact h.arm x (List.mem_of_getElem? hx)

theorem Merged.noMimic (h : Merged A B r fr aMb) (hr : Inv r) (nA : A.NoMimic) (nB : B.NoMimic) : r.NoMimic := by
  intro k o h1 ho
  have hk : k < r.njoints := by
    rw [← hr.lens.joints]; by_contra hc
    rw [List.getElem?_eq_none (by omega)] at ho; cases ho
  rcases h.cover k h1 hk with ⟨i, i1, hi, rfl⟩ | ⟨i, i1, hi, rfl⟩
  · obtain ⟨e, o', he, ho', hp, -, hv, hvx, hm, -⟩ := (h.jointA i i1 hi).1.entry
    rw [ho] at ho'
    obtain rfl := Option.some.inj ho'
    exact hm.2 (nA i e i1 he)
  · obtain ⟨e, o', he, ho', hp, -, hv, hvx, hm, -⟩ := (h.jointB i i1 hi).1.entry
    rw [ho] at ho'
    obtain rfl := Option.some.inj ho'
    exact hm.2 (nB i e i1 he)

theorem Merged.jointsOk (h : Merged A B r fr aMb) (hr : Inv r) (nA : A.NoMimic) (nB : B.NoMimic) (jA : A.JointsOk)
    (jB : B.JointsOk) : r.JointsOk := by
  intro k o h1 ho
  have hm0 := h.noMimic hr nA nB k o h1 ho
  have hk : k < r.njoints := by
    rw [← hr.lens.joints]; by_contra hc
    rw [List.getElem?_eq_none (by omega)] at ho; cases ho
  rcases h.cover k h1 hk with ⟨i, i1, hi, rfl⟩ | ⟨i, i1, hi, rfl⟩
  · obtain ⟨e, o', he, ho', hp, -, hv, hvx, hm, -⟩ := (h.jointA i i1 hi).1.entry
    rw [ho] at ho'
    obtain rfl := Option.some.inj ho'
    obtain ⟨a, b, -⟩ := jA i e i1 he
    refine ⟨by rw [hp, hvx]; exact a, fun _ => by rw [hv, hvx]; exact b (nA i e i1 he), fun x hx => ?_⟩
    rw [hm0] at hx; cases hx
  · obtain ⟨e, o', he, ho', hp, -, hv, hvx, hm, -⟩ := (h.jointB i i1 hi).1.entry
    rw [ho] at ho'
    obtain rfl := Option.some.inj ho'
    obtain ⟨a, b, -⟩ := jB i e i1 he
    refine ⟨by rw [hp, hvx]; exact a, fun _ => by rw [hv, hvx]; exact b (nB i e i1 he), fun x hx => ?_⟩
    rw [hm0] at hx; cases hx

variable {q q' qB a a' aB w w' wB : ℕ → K}

/-- configurations of the three models that agree -/
theorem Merged.at_of (h : Merged A B r fr aMb) (hfv : fr.placement.Valid) (haMb : aMb.Valid) {j0 : Joint K} {g g' : Motion K}
    (lA : ∀ i, 1 ≤ i → i < A.njoints → ((A.toSys j0 g).jt i).Local) (lB : ∀ i, 1 ≤ i → i < B.njoints → ((B.toSys j0 g').jt i).Local)
    (qA : (A.toSys j0 g).At q) (qb : (B.toSys j0 g').At qB)
    (sA : (A.toSys j0 g).SameQ (r.toSys j0 g) (inA A r) q q')
    (sB : (B.toSys j0 g').SameQ (r.toSys j0 g) (inB A B r fr.parentJoint) qB q') : (r.toSys j0 g).At q' := by
  refine ⟨fun k h1 hk => ?_, fun k h1 hk => ?_⟩
  · change (r.pl k).Valid
    rcases h.cover k h1 hk with ⟨i, i1, hi, rfl⟩ | ⟨i, i1, hi, rfl⟩
    · rw [(h.jointA i i1 hi).2.2]; exact qA.pl i i1 hi
    · rw [(h.jointB i i1 hi).2.2]
      unfold placeB
      split
      · exact (hfv.mul haMb).mul (qb.pl i i1 hi)
      · exact qb.pl i i1 hi
  · rcases h.cover k h1 hk with ⟨i, i1, hi, rfl⟩ | ⟨i, i1, hi, rfl⟩
    · obtain ⟨e, o, he, ho, hp, -⟩ := (h.jointA i i1 hi).1.entry
      have : (r.toSys j0 g).jt (inA A r i) = (A.toSys j0 g).jt i := by rw [(toSys_jt he j0 g).1, (toSys_jt ho j0 g).1, hp]
      rw [this]
      exact (lA i i1 hi).ok (qA.jt i i1 hi) (fun k hk => (sA i i1 hi k hk).symm)
    · obtain ⟨e, o, he, ho, hp, -⟩ := (h.jointB i i1 hi).1.entry
      have : (r.toSys j0 g).jt (inB A B r fr.parentJoint i) = (B.toSys j0 g').jt i := by
        rw [(toSys_jt he j0 g').1, (toSys_jt ho j0 g).1, hp]
      rw [this]
      exact (lB i i1 hi).ok (qb.jt i i1 hi) (fun k hk => (sB i i1 hi k hk).symm)

theorem Merged.V_A (h : Merged A B r fr aMb) (hA : Inv A) (hr : Inv r) {j0 : Joint K} {g : Motion K}
    (lA : ∀ i, 1 ≤ i → i < A.njoints → ((A.toSys j0 g).jt i).Local) (qA : (A.toSys j0 g).At q)
    (sA : (A.toSys j0 g).SameQ (r.toSys j0 g) (inA A r) q q') (vA : (A.toSys j0 g).SameV (r.toSys j0 g) (inA A r) w w')
    {i : ℕ} (hi : i < A.njoints) : (r.toSys j0 g).V q' w' (inA A r i) = (A.toSys j0 g).V q w i := by
  rcases Nat.eq_zero_or_pos i with rfl | h1
  · change (r.toSys j0 g).V q' w' 0 = _
    rw [Sys.V_zero, Sys.V_zero]
  · rw [(h.embA hA hr j0 g).V_eq lA sA qA SE3.valid_one vA i hi h1]
    change _ + SE3.actInv _ ((r.toSys j0 g).V q' w' 0) = _
    rw [Sys.V_zero, SE3.actInv_zero, add_zero]

theorem Merged.V_B (h : Merged A B r fr aMb) (hA : Inv A) (hB : Inv B) (hr : Inv r) (hp : fr.parentJoint < A.njoints)
    (hfv : fr.placement.Valid) (haMb : aMb.Valid) {j0 : Joint K} {g g' : Motion K}
    (lA : ∀ i, 1 ≤ i → i < A.njoints → ((A.toSys j0 g).jt i).Local) (lB : ∀ i, 1 ≤ i → i < B.njoints → ((B.toSys j0 g').jt i).Local)
    (qA : (A.toSys j0 g).At q) (qb : (B.toSys j0 g').At qB)
    (sA : (A.toSys j0 g).SameQ (r.toSys j0 g) (inA A r) q q')
    (sB : (B.toSys j0 g').SameQ (r.toSys j0 g) (inB A B r fr.parentJoint) qB q')
    (vA : (A.toSys j0 g).SameV (r.toSys j0 g) (inA A r) w w')
    (vB : (B.toSys j0 g').SameV (r.toSys j0 g) (inB A B r fr.parentJoint) wB w') {j : ℕ} (h1 : 1 ≤ j) (hj : j < B.njoints) :
    (r.toSys j0 g).V q' w' (inB A B r fr.parentJoint j) = (B.toSys j0 g').V qB wB j +
      (fr.placement * aMb * (B.toSys j0 g').oM qB j).actInv ((A.toSys j0 g).V q w fr.parentJoint) := by
  rw [(h.embB hB hr j0 g' g).V_eq lB sB qb (hfv.mul haMb) vB j hj h1]
  have := h.V_A hA hr lA qA sA vA hp
  change _ + SE3.actInv _ ((r.toSys j0 g).V q' w' (inA A r fr.parentJoint)) = _
  rw [this]

/-- the kinetic energy: that of `A`, that of what `B` has on its universe, carried by the joint of the frame, and that of `B`
on a moving base -/
theorem AEnd.massForm (h : AEnd A B r fr aMb) (hA : Inv A) (hB : Inv B) (hp : fr.parentJoint < A.njoints) (hc : Clean (src A B))
    (hfv : fr.placement.Valid) (haMb : aMb.Valid) {j0 : Joint K} {g g' : Motion K}
    (lA : ∀ i, 1 ≤ i → i < A.njoints → ((A.toSys j0 g).jt i).Local) (lB : ∀ i, 1 ≤ i → i < B.njoints → ((B.toSys j0 g').jt i).Local)
    (qA : (A.toSys j0 g).At q) (qb : (B.toSys j0 g').At qB)
    (sA : (A.toSys j0 g).SameQ (r.toSys j0 g) (inA A r) q q')
    (sB : (B.toSys j0 g').SameQ (r.toSys j0 g) (inB A B r fr.parentJoint) qB q')
    (vA : (A.toSys j0 g).SameV (r.toSys j0 g) (inA A r) w w')
    (vB : (B.toSys j0 g').SameV (r.toSys j0 g) (inB A B r fr.parentJoint) wB w')
    (uA : (A.toSys j0 g).SameV (r.toSys j0 g) (inA A r) a a')
    (uB : (B.toSys j0 g').SameV (r.toSys j0 g) (inB A B r fr.parentJoint) aB a') :
    (r.toSys j0 g).massForm q' w' a' =
      ∑ i ∈ Ico 1 A.njoints, ((A.toSys j0 g).V q w i).dot ((A.inertia i).mul ((A.toSys j0 g).V q a i))
      + ((A.toSys j0 g).V q w fr.parentJoint).dot
          (((B.inertia 0).act (fr.placement * aMb)).mul ((A.toSys j0 g).V q a fr.parentJoint))
      + ∑ j ∈ Ico 1 B.njoints, ((B.toSys j0 g').V qB wB j +
          (fr.placement * aMb * (B.toSys j0 g').oM qB j).actInv ((A.toSys j0 g).V q w fr.parentJoint)).dot
          ((B.inertia j).mul ((B.toSys j0 g').V qB aB j +
            (fr.placement * aMb * (B.toSys j0 g').oM qB j).actInv ((A.toSys j0 g).V q a fr.parentJoint))) := by
  have M := h.merged hA hB hp
  have z : (r.toSys j0 g).dotv w' (fun k => (r.toSys j0 g).arm k * a' k) = 0 := by
    unfold Sys.dotv
    refine sum_eq_zero fun k _ => ?_
    dsimp only
    rw [h.arm0, zero_mul, mul_zero]
  unfold Sys.massForm
  rw [z, add_zero]
  change ∑ k ∈ Ico 1 r.njoints, _ = _
  rw [M.sum]
  congr 1
  · have e1 : ∀ i ∈ Ico 1 A.njoints, ((r.toSys j0 g).V q' w' (inA A r i)).dot
        (((r.toSys j0 g).Y (inA A r i)).mul ((r.toSys j0 g).V q' a' (inA A r i))) =
        ((A.toSys j0 g).V q w i).dot ((A.inertia i).mul ((A.toSys j0 g).V q a i)) +
        if fr.parentJoint = i then ((A.toSys j0 g).V q w fr.parentJoint).dot
          (((B.inertia 0).act (fr.placement * aMb)).mul ((A.toSys j0 g).V q a fr.parentJoint)) else 0 := by
      intro i hi
      rw [mem_Ico] at hi
      rw [M.V_A hA h.inv lA qA sA vA hi.2, M.V_A hA h.inv lA qA sA uA hi.2]
      change ((A.toSys j0 g).V q w i).dot ((r.inertia (inA A r i)).mul _) = _
      rw [← Inertia.matrix_mulMF, h.matA hA hB hp hc hi.2]
      by_cases he : i = fr.parentJoint
      · rw [if_pos he, if_pos he.symm, ← he, M6.add_mulMF, Inertia.matrix_mulMF, Inertia.matrix_mulMF, Motion.dot_add]
      · rw [if_neg he, if_neg (fun e => he e.symm), add_zero, Inertia.matrix_mulMF, add_zero]
    rw [sum_congr rfl e1, sum_add_distrib, sum_ite_eq]
    congr 1
    split
    · rfl
    · rename_i hn
      have : fr.parentJoint = 0 := by
        rw [mem_Ico] at hn
        omega
      rw [this, Sys.V_zero, Motion.zero_dot]
  · refine sum_congr rfl fun j hj => ?_
    rw [mem_Ico] at hj
    rw [M.V_B hA hB h.inv hp hfv haMb lA lB qA qb sA sB vA vB hj.1 hj.2, M.V_B hA hB h.inv hp hfv haMb lA lB qA qb sA sB uA uB hj.1 hj.2]
    change Motion.dot _ ((r.inertia _).mul _) = _
    rw [← Inertia.matrix_mulMF, h.matB hA hB hp hc hj.1 hj.2, Inertia.matrix_mulMF]

/-- a unit vector of `B` in the result -/
theorem Merged.unit_B (h : Merged A B r fr aMb) (j0 : Joint K) (g g' : Motion K) (pB : (B.toSys j0 g').Packed)
    (pr : (r.toSys j0 g).Packed) {j k : ℕ} (h1 : 1 ≤ j) (hj : j < B.njoints) (hk : k < (B.toSys j0 g').jnv j) :
    (B.toSys j0 g').SameV (r.toSys j0 g) (inB A B r fr.parentJoint) (Sys.unit ((B.toSys j0 g').iv j + k))
      (Sys.unit ((r.toSys j0 g).iv (inB A B r fr.parentJoint j) + k)) ∧
    (A.toSys j0 g).SameV (r.toSys j0 g) (inA A r) (fun _ => 0) (Sys.unit ((r.toSys j0 g).iv (inB A B r fr.parentJoint j) + k)) := by
  have nb : ∀ i, 1 ≤ i → i < B.njoints → (r.toSys j0 g).jnv (inB A B r fr.parentJoint i) = (B.toSys j0 g').jnv i := by
    intro i i1 hi
    obtain ⟨e, o, he, ho, hp, -⟩ := (h.jointB i i1 hi).1.entry
    unfold Sys.jnv
    rw [(toSys_jt he j0 g').1, (toSys_jt ho j0 g).1, hp]
  have na : ∀ i, 1 ≤ i → i < A.njoints → (r.toSys j0 g).jnv (inA A r i) = (A.toSys j0 g).jnv i := by
    intro i i1 hi
    obtain ⟨e, o, he, ho, hp, -⟩ := (h.jointA i i1 hi).1.entry
    unfold Sys.jnv
    rw [(toSys_jt he j0 g).1, (toSys_jt ho j0 g).1, hp]
  have rb := h.rangeB j h1 hj
  refine ⟨fun i i1 hi l hl => ?_, fun i i1 hi l hl => ?_⟩
  · have ri := h.rangeB i i1 hi
    unfold Sys.unit
    by_cases e : (B.toSys j0 g').iv i + l = (B.toSys j0 g').iv j + k
    · obtain ⟨rfl, rfl⟩ := pB.inj i1 hi h1 hj hl hk e
      rw [if_pos rfl, if_pos rfl]
    · rw [if_neg e, if_neg]
      intro e'
      obtain ⟨x, y⟩ := pr.inj ri.1 ri.2 rb.1 rb.2 (by rw [nb i i1 hi]; exact hl) (by rw [nb j h1 hj]; exact hk) e'
      exact e (by rw [h.injB i j i1 hi h1 hj x, y])
  · have ri := h.rangeA i i1 hi
    unfold Sys.unit
    rw [if_neg]
    intro e'
    obtain ⟨x, -⟩ := pr.inj ri.1 ri.2 rb.1 rb.2 (by rw [na i i1 hi]; exact hl) (by rw [nb j h1 hj]; exact hk) e'
    exact h.disjoint i j i1 hi h1 hj x

end
end Model
end Pin
