import Verif.Model.DataTablesLemmas
import Verif.Props.Construction

/-!
# C66: the tables of a `Data` fit the model it was built for

`m.dataTables` runs the part of the constructor `DataTpl(model)` that computes index tables; `none` is an access out of the
range of a vector. `m.checkData T` is `model.check(data)` for these tables. `m.Plain` says that no joint of `m` mimics another
one and that every joint has at least one degree of freedom; this is what is missing in the theorems named `_partial`, and the
counterexamples below show that the property fails without it.
-/

set_option linter.unusedSectionVars false

namespace Pin
open Model
variable {K P : Type*} [Field K] [LinearOrder K] [HasEps K]

/-- the joints are numbered depth first: what lies between a joint and a joint it supports is supported by it -/
def DepthFirst (m : Model K P) : Prop :=
  ∀ i k j, 1 ≤ i → i ≤ k → k ≤ j → j < m.njoints → i ∈ m.supports.getD j [] → i ∈ m.supports.getD k []

theorem depthFirst_iff {m : Model K P} (h : Inv m) : DepthFirst m ↔ Compact m.pa m.njoints := by
  constructor
  · intro hd i k j h1 hik hkj hj ha
    exact (anc_supports h i k (by omega)).2 (hd i k j h1 hik hkj hj ((anc_supports h i j hj).1 ha))
  · intro hc i k j h1 hik hkj hj ha
    exact (anc_supports h i k (by omega)).1 (hc i k j h1 hik hkj hj ((anc_supports h i j hj).2 ha))

theorem idx_row0 {m : Model K P} (h : Inv m) (hp : m.Plain) {j : ℕ} (j1 : 1 ≤ j) (hj : j < m.njoints) :
    m.idx_vs.getD j 0 = m.row0 j := h.idxv j hj (by have := dof_pos h hp j1 hj; unfold dof at this; omega)

theorem rep_get {α : Type*} {l : List α} {n : ℕ} {f : ℕ → α} (h : Rep l n f) {i : ℕ} (hi : i < n) : l[i]? = some (f i) := h.2 i hi

/-- Building a `Data` reads and writes nothing out of range, whatever the numbering of the joints. Its tables have the sizes of
the model, and for every joint `j` and every row `r` of `j`:
`lastChild` is the largest joint of the subtree; `nvSubtree` counts the rows from the joint to this last one;
`parents_fromRow` and `non_mimic_parents_fromRow` are the row before `r` on the way to the root, `-1` when there is none;
`supports_fromRow` lists in increasing order the rows on the way from the root to `r`. -/
theorem C66_tables_partial {p0 : P} {m : Model K P} (h : Reach p0 m) (hp : m.Plain) : ∃ T, m.dataTables = some T ∧
    (T.lastChild.length = m.njoints ∧ T.nvSubtree.length = m.njoints ∧ T.mimicSubtree = [] ∧ T.parentsRow.length = m.nv ∧
      T.mimicParentsRow.length = m.nv ∧ T.nonMimicParentsRow.length = m.nv ∧ T.nvSubtreeRow.length = m.nv ∧
      T.startRow.length = m.nv ∧ T.endRow.length = m.nv ∧ T.vxToV.length = m.nv ∧ T.supportsRow.length = m.nv) ∧
    ∀ j, 1 ≤ j → j < m.njoints → ∃ (l : ℕ) (s : ℤ),
      (T.lastChild[j]? = some (l : ℤ) ∧ l ∈ m.subtrees.getD j [] ∧ ∀ k ∈ m.subtrees.getD j [], k ≤ l) ∧
      (T.nvSubtree[j]? = some s ∧ s = (m.idx_vs.getD l 0 : ℤ) + m.nvs.getD l 0 - m.idx_vs.getD j 0) ∧
      ∀ r, r < m.nvs.getD j 0 → ∃ (before : ℤ) (L : List ℤ),
        T.parentsRow[m.idx_vs.getD j 0 + r]? = some before ∧
        T.nonMimicParentsRow[m.idx_vs.getD j 0 + r]? = some before ∧
        (r = 0 → m.parents.getD j 0 = 0 → before = -1) ∧
        (r = 0 → m.parents.getD j 0 ≠ 0 →
          before = (m.idx_vs.getD (m.parents.getD j 0) 0 : ℤ) + m.nvs.getD (m.parents.getD j 0) 0 - 1) ∧
        (r ≠ 0 → before = (m.idx_vs.getD j 0 : ℤ) + r - 1) ∧
        T.mimicParentsRow[m.idx_vs.getD j 0 + r]? = some (if r = 0 then -1 else (m.idx_vs.getD j 0 : ℤ) + r - 1) ∧
        T.nvSubtreeRow[m.idx_vs.getD j 0 + r]? = some (s - r) ∧
        T.startRow[m.idx_vs.getD j 0 + r]? = some (m.idx_vs.getD j 0 : ℤ) ∧
        T.endRow[m.idx_vs.getD j 0 + r]? = some ((m.idx_vs.getD j 0 : ℤ) + m.nvs.getD j 0 - 1) ∧
        T.vxToV[m.idx_vs.getD j 0 + r]? = some ((m.idx_vs.getD j 0 : ℤ) + r) ∧
        T.supportsRow[m.idx_vs.getD j 0 + r]? = some L ∧ L.Pairwise (· < ·) ∧
        ∀ x : ℤ, x ∈ L ↔ ∃ k ∈ m.supports.getD j [], ∃ t, t < m.nvs.getD k 0 ∧ x = (m.idx_vs.getD k 0 : ℤ) + t ∧
          x ≤ (m.idx_vs.getD j 0 : ℤ) + r := by
  have hi := h.inv
  obtain ⟨T, f, g, F, s, e, hf, hg, hm, hF, hs, hfg, hv⟩ := tables_run hi hp h.root
  refine ⟨T, e, ⟨hf.1, hg.1, hm, hF.p.1, hF.mp.1, hF.np.1, hF.ns.1, hF.st.1, hF.en.1, hF.vx.1, hs.1⟩, ?_⟩
  intro j j1 hj
  obtain ⟨⟨l, el, hl⟩, l', hl', es⟩ := hfg j j1 hj
  obtain rfl : l = l' := le_antisymm (hl'.2 _ hl.1.1 hl.1.2) (hl.2 _ hl'.1.1 hl'.1.2)
  have hjl := anc_le (pa_ok hi) l hl.1.1 hl.1.2
  have hsub : ∀ k, k ∈ m.subtrees.getD j [] ↔ (k < m.njoints ∧ 1 ≤ k ∧ anc m.pa j k) := by
    intro k
    rw [hi.sub j hj, List.mem_filter, List.mem_range]
    simp only [decide_eq_true_eq]
    constructor
    · rintro ⟨a, b, c⟩; exact ⟨a, b, (anc_supports hi j k a).2 c⟩
    · rintro ⟨a, b, c⟩; exact ⟨a, b, (anc_supports hi j k a).1 c⟩
  refine ⟨l, g j, ⟨by rw [rep_get hf hj, el], (hsub l).2 ⟨hl.1.1, by omega, hl.1.2⟩,
    fun k hk => hl.2 k ((hsub k).1 hk).1 ((hsub k).1 hk).2.2⟩, ⟨rep_get hg hj, ?_⟩, ?_⟩
  · rw [es, idx_row0 hi hp j1 hj, idx_row0 hi hp (by omega) hl.1.1]; rfl
  intro r hr
  have hrow := row_lt hi hj hr
  obtain ⟨hv1, hv2⟩ := hv j r j1 hj hr
  have hpa := (pa_ok hi).2 j j1 hj
  obtain ⟨hs1, hs2⟩ := supports_row hi j1 hj hr
  rw [idx_row0 hi hp j1 hj]
  refine ⟨(m.rowE g j r).p, m.supRows (m.pa j) ++ m.rowsOf j (r + 1), by rw [rep_get hF.p hrow, hv1],
    by rw [rep_get hF.np hrow, hv1]; rfl, ?_, ?_, ?_, by rw [rep_get hF.mp hrow, hv1]; rfl, by rw [rep_get hF.ns hrow, hv1]; rfl,
    by rw [rep_get hF.st hrow, hv1]; rfl, by rw [rep_get hF.en hrow, hv1]; rfl, by rw [rep_get hF.vx hrow, hv1]; rfl,
    by rw [rep_get hs hrow, hv2], hs1, ?_⟩
  · rintro rfl e0
    have : m.pa j = 0 := e0
    simp [rowE, this, endOf]
  · rintro rfl e0
    have e0' : m.pa j ≠ 0 := e0
    have := idx_row0 hi hp (show 1 ≤ m.parents.getD j 0 from Nat.one_le_iff_ne_zero.2 e0) (by change m.pa j < _; omega)
    rw [this]
    simp only [rowE, if_true, endOf, if_neg e0']
    rfl
  · intro h0
    simp only [rowE, if_neg h0]
  · intro x
    rw [hs2]
    constructor
    · rintro ⟨k, hk, t, ht, rfl, hx⟩
      have hk' := (anc_supports hi k j hj).2 hk
      have hkj := anc_le (pa_ok hi) j hj hk'
      have k1 : 1 ≤ k := by
        rcases Nat.eq_zero_or_pos k with rfl | h
        · rw [dof_zero hi] at ht; omega
        · exact h
      exact ⟨k, hk, t, ht, by rw [idx_row0 hi hp k1 (by omega)], hx⟩
    · rintro ⟨k, hk, t, ht, rfl, hx⟩
      have hk' := (anc_supports hi k j hj).2 hk
      have hkj := anc_le (pa_ok hi) j hj hk'
      have k1 : 1 ≤ k := by
        rcases Nat.eq_zero_or_pos k with rfl | h
        · rw [hi.v0] at ht; omega
        · exact h
      rw [idx_row0 hi hp k1 (by omega)] at hx ⊢
      exact ⟨k, hk, t, ht, rfl, hx⟩

/-- when the joints are numbered depth first, `nvSubtree` counts the degrees of freedom of the subtree -/
theorem C66_subtree_partial {p0 : P} {m : Model K P} (h : Reach p0 m) (hp : m.Plain) (hd : DepthFirst m) {T : Tables}
    (hT : m.dataTables = some T) {j : ℕ} (j1 : 1 ≤ j) (hj : j < m.njoints) :
    T.nvSubtree[j]? = some (((m.subtrees.getD j []).map fun k => m.nvs.getD k 0).sum : ℤ) := by
  have hi := h.inv
  obtain ⟨T', f, g, F, s, e, hf, hg, hm, hF, hs, hfg, hv⟩ := tables_run hi hp h.root
  obtain rfl : T' = T := by rw [e] at hT; exact Option.some.inj hT
  obtain ⟨-, l, hl, es⟩ := hfg j j1 hj
  rw [rep_get hg hj, es, ← subtree_sum hi ((depthFirst_iff hi).1 hd) j1 hj hl]
  rfl

/-- `model.check(Data(model))` always answers, and it accepts exactly the models whose joints are numbered depth first -/
theorem C66_check_partial {p0 : P} {m : Model K P} (h : Reach p0 m) (hp : m.Plain) : ∃ T b, m.dataTables = some T ∧
    m.checkData T = some b ∧ (b = true ↔ DepthFirst m) := by
  obtain ⟨T, b, e, hb, hiff⟩ := checkData_run h.inv hp h.root
  exact ⟨T, b, e, hb, by rw [hiff, depthFirst_iff h.inv]⟩

/-! ## Concrete cases -/

namespace Ex

/-- two branches, numbered depth first, with a joint of three degrees of freedom -/
def dfM : Model ℚ Unit := (run (empty ()) [.addJoint (ja 0 1 "a"), .addJoint (ja 1 3 "b"), .addJoint (ja 2 2 "c"),
  .addJoint (ja 1 1 "d"), .addJoint (ja 0 1 "e")]).getD (empty ())

theorem dfM_reach : Reach () dfM := by
  have h : (run (empty ()) [.addJoint (ja 0 1 "a"), .addJoint (ja 1 3 "b"), .addJoint (ja 2 2 "c"),
    .addJoint (ja 1 1 "d"), .addJoint (ja 0 1 "e")]).isSome = true := by decide +kernel
  obtain ⟨m, hm⟩ := Option.isSome_iff_exists.1 h
  have : dfM = m := by simp [dfM, hm]
  rw [this]
  exact reach_run _ _ _ .init (by decide +kernel) hm

/-- a decision of `Plain` -/
def plainB (m : Model ℚ Unit) : Bool :=
  (m.joints.drop 1).all (fun e => e.desc.mimic.isNone && e.desc.nvx == e.desc.nv && decide (1 ≤ e.desc.nv)) && m.mimicking.isEmpty

theorem plain_of {m : Model ℚ Unit} (h : plainB m = true) : m.Plain := by
  unfold plainB at h
  rw [Bool.and_eq_true, List.all_eq_true, List.isEmpty_iff] at h
  have key : ∀ i e, 1 ≤ i → m.joints[i]? = some e → e ∈ m.joints.drop 1 := by
    intro i e i1 he
    rw [List.mem_iff_getElem?]
    exact ⟨i - 1, by rw [List.getElem?_drop, show 1 + (i - 1) = i by omega]; exact he⟩
  refine ⟨?_, ?_, ?_, h.2⟩ <;> intro i e i1 he <;> have := h.1 e (key i e i1 he) <;>
    simp only [Bool.and_eq_true, Option.isNone_iff_eq_none, beq_iff_eq, decide_eq_true_eq] at this
  · exact this.1.1
  · exact this.1.2
  · exact this.2

theorem dfM_plain : dfM.Plain := plain_of (by decide +kernel)
theorem exM_plain : exM.Plain := plain_of (by decide +kernel)

set_option maxRecDepth 100000 in
/-- the hypotheses of C66 hold for a depth-first model, which is accepted, and for one numbered otherwise, which is not -/
example : (∃ T, dfM.dataTables = some T ∧ dfM.checkData T = some true ∧ DepthFirst dfM ∧
      T.nvSubtree.drop 1 = [7, 5, 2, 1, 1] ∧ T.supportsRow[5]? = some [0, 1, 2, 3, 4, 5] ∧ T.supportsRow[6]? = some [0, 6] ∧
      T.parentsRow = [-1, 0, 1, 2, 3, 4, 0, -1]) ∧
    ∃ T, exM.dataTables = some T ∧ exM.checkData T = some false ∧ ¬ DepthFirst exM := by
  obtain ⟨T, b, e, hb, hiff⟩ := C66_check_partial dfM_reach dfM_plain
  obtain ⟨T2, b2, e2, hb2, hiff2⟩ := C66_check_partial exM_reach exM_plain
  have v1 : (dfM.dataTables.bind dfM.checkData) = some true := by decide +kernel
  have v2 : (exM.dataTables.bind exM.checkData) = some false := by decide +kernel
  rw [e, Option.bind_some, hb, Option.some.injEq] at v1
  rw [e2, Option.bind_some, hb2, Option.some.injEq] at v2
  refine ⟨⟨T, e, by rw [hb, v1], hiff.1 v1, ?_⟩, T2, e2, by rw [hb2, v2], fun hd => by
    have := hiff2.2 hd; rw [v2] at this; exact absurd this (by decide)⟩
  have v3 : (dfM.dataTables.map fun T => decide (T.nvSubtree.drop 1 = [7, 5, 2, 1, 1] ∧
      T.supportsRow[5]? = some [0, 1, 2, 3, 4, 5] ∧ T.supportsRow[6]? = some [0, 6] ∧
      T.parentsRow = [-1, 0, 1, 2, 3, 4, 0, -1])) = some true := by decide +kernel
  rw [e, Option.map_some, Option.some.injEq, decide_eq_true_eq] at v3
  exact v3

/-! ## Mimic joints -/

/-- an `addJoint` call for a joint that mimics the joint `mid`, of configuration and velocity indexes `mq`, `mv` -/
def jm (parent : ℕ) (name : String) (mid mq mv : ℕ) : JointArgs ℚ Unit :=
  ⟨parent, ⟨(), 0, 0, 1, some (mid, mq, mv)⟩, mA, name, [], [], [], [], [], []⟩

/-- a decision of `OpOk` -/
def okMim (m : Model ℚ Unit) : Op ℚ Unit → Bool
  | .addJoint a => match a.joint.mimic with
    | none => true
    | some x => a.joint.nq == 0 && a.joint.nv == 0 && decide (x.1 < m.njoints)
  | _ => true

/-- run a list of admissible calls -/
def runMim (m : Model ℚ Unit) : List (Op ℚ Unit) → Option (Model ℚ Unit)
  | [] => some m
  | op :: t => if okMim m op then
      match m.step op with
      | some m' => runMim m' t
      | none => none
    else none

theorem okMim_ok (m : Model ℚ Unit) (op : Op ℚ Unit) (h : okMim m op = true) : OpOk m op := by
  cases op with
  | addJoint a =>
    intro x hx
    simp only [okMim, hx, Bool.and_eq_true, beq_iff_eq, decide_eq_true_eq] at h
    exact ⟨h.1.1, h.1.2, h.2⟩
  | _ => trivial

theorem reach_runMim : ∀ (l : List (Op ℚ Unit)) (m m' : Model ℚ Unit), Reach () m → runMim m l = some m' → Reach () m' := by
  intro l
  induction l with
  | nil => intro m m' h e; simp [runMim] at e; exact e ▸ h
  | cons op t ih =>
    intro m m' h e
    simp only [runMim] at e
    split at e
    · rename_i hok
      split at e
      · rename_i m2 hs
        exact ih m2 m' (.step h (okMim_ok _ _ hok) hs) e
      · simp at e
    · simp at e

/-- a decision about a model built by a list of calls -/
theorem runMim_dec {l : List (Op ℚ Unit)} {Q : Model ℚ Unit → Prop} [DecidablePred Q]
    (h : ((runMim (empty ()) l).map fun m => decide (Q m)) = some true) : ∃ m, Reach () m ∧ Q m := by
  cases hm : runMim (empty ()) l with
  | none => rw [hm] at h; simp at h
  | some m =>
    rw [hm, Option.map_some, Option.some.injEq, decide_eq_true_eq] at h
    exact ⟨m, reach_runMim l _ _ .init hm, h⟩

end Ex
open Ex

set_option maxRecDepth 100000 in
/-- `multibody/data.hxx:213-226`: `nvSubtree` takes the last row of the subtree from the index of its last joint; when this one
is a mimic joint its index is the one of the joint it mimics. With a mimic joint that hangs from another branch than the joint it
mimics, the branch is given zero columns, and `model.check(data)` refuses the very `Data` built for the model. -/
theorem C66_mimic_branch_counterexample : ∃ m : Model ℚ Unit, Reach () m ∧
    (m.parents = [0, 0, 0, 2] ∧ m.nvs = [0, 1, 1, 0]) ∧
    (m.dataTables.map fun T => T.nvSubtree.drop 1) = some [1, 0, 0] ∧
    (m.dataTables.bind m.checkData) = some false :=
  runMim_dec (l := [.addJoint (ja 0 1 "a"), .addJoint (ja 0 1 "b"), .addJoint (jm 2 "m" 1 0 0)]) (by decide +kernel)

set_option maxRecDepth 100000 in
/-- `multibody/data.hxx:213-226`: in a chain whose last joint mimics the first one, the subtree of the first joint is given one
column instead of two -/
theorem C66_mimic_chain_counterexample : ∃ m : Model ℚ Unit, Reach () m ∧
    (m.parents = [0, 0, 1, 2] ∧ m.nvs = [0, 1, 1, 0] ∧ m.subtrees.getD 1 [] = [1, 2, 3]) ∧
    (m.dataTables.map fun T => T.nvSubtree.getD 1 0) = some 1 ∧
    (m.dataTables.bind m.checkData) = some false :=
  runMim_dec (l := [.addJoint (ja 0 1 "a"), .addJoint (ja 1 1 "b"), .addJoint (jm 2 "m" 1 0 0)]) (by decide +kernel)

set_option maxRecDepth 100000 in
/-- `multibody/data.hxx:228-241`: a mimic joint that carries only mimic joints makes the constructor of `Data` read past the end of
a vector -/
theorem C66_mimic_subtree_counterexample : ∃ m : Model ℚ Unit, Reach () m ∧ m.parents = [0, 0, 1, 2] ∧ m.nvs = [0, 1, 0, 0] ∧
    m.dataTables.isNone :=
  runMim_dec (l := [.addJoint (ja 0 1 "a"), .addJoint (jm 1 "b" 1 0 0), .addJoint (jm 2 "c" 1 0 0)]) (by decide +kernel)

set_option maxRecDepth 100000 in
/-- `multibody/data.hxx:323-342`: the loop on the joints adds the rows of a mimic joint to the list of the row it mimics, which then
holds the same row twice; `model.check(data)` does not see it -/
theorem C66_supports_counterexample : ∃ m : Model ℚ Unit, Reach () m ∧ m.parents = [0, 0, 1] ∧ m.nvs = [0, 1, 0] ∧
    (m.dataTables.map fun T => T.supportsRow) = some [[0, 0]] ∧
    (m.dataTables.bind m.checkData) = some true :=
  runMim_dec (l := [.addJoint (ja 0 1 "a"), .addJoint (jm 1 "b" 1 0 0)]) (by decide +kernel)

set_option maxRecDepth 100000 in
/-- `multibody/data.hxx:253-298`: a last joint without degree of freedom (an empty composite joint, say) makes the constructor of
`Data` write past the end of its tables by row -/
theorem C66_no_dof_counterexample : ∃ m : Model ℚ Unit, Reach () m ∧ m.parents = [0, 0, 1] ∧ m.nvs = [0, 1, 0] ∧
    m.dataTables.isNone :=
  runMim_dec (l := [.addJoint (ja 0 1 "a"), .addJoint (ja 1 0 "b")]) (by decide +kernel)

end Pin
