import Verif.Spec.CrbaMimic
import Verif.Algo.DelassusLemmas
import Verif.Model.Reach

/-! # The tables `crba` reads, for a model built by construction calls -/

namespace Pin.Model
open Finset Pin
variable {K P : Type*}

/-- the mimic joints of a model: each has one degree of freedom, no coordinate of its own, and follows an earlier joint with one degree of
freedom which is not a mimic joint (`joint/joint-mimic.hpp:555-620`); `model.mimicking_joints` lists them -/
structure MimicOk (m : Model K (Joint K)) : Prop where
  zero : (m.joints[0]?.bind (·.desc.mimic)) = none
  size : ∀ i e, 1 ≤ i → m.joints[i]? = some e → e.desc.payload.nv = e.desc.nvx
  plain : ∀ i e, 1 ≤ i → m.joints[i]? = some e → e.desc.mimic = none → e.desc.nvx = e.desc.nv
  mimic : ∀ i e x, 1 ≤ i → m.joints[i]? = some e → e.desc.mimic = some x → e.desc.nv = 0 ∧ e.desc.nvx = 1 ∧
    (1 ≤ x.1 ∧ x.1 < i) ∧ ∃ e', m.joints[x.1]? = some e' ∧ e'.desc.mimic = none ∧ e.idx_v = e'.idx_v ∧ e'.desc.nv = 1
  list : m.mimicking = (List.range m.njoints).filter (fun i => (m.joints[i]?.bind (·.desc.mimic)).isSome)

section
variable {m : Model K P}

theorem parentsRowInner_keep {jj : JRow} {nvSub : ℤ} {row : ℕ} {T T' : Tables} (h : parentsRowInner jj nvSub row T = some T') :
    T'.mimicSubtree = T.mimicSubtree := by
  unfold parentsRowInner at h
  simp only [Option.bind_eq_bind, Option.bind_eq_some_iff, Option.some.injEq] at h
  obtain ⟨_, -, _, -, _, -, _, -, _, -, _, -, _, -, _, -, _, -, _, -, rfl⟩ := h
  rfl

theorem foldlM_keep {ι : Type*} {f : Tables → ι → Option Tables}
    (hf : ∀ T x T', f T x = some T' → T'.mimicSubtree = T.mimicSubtree) : ∀ (l : List ι) (T T' : Tables), l.foldlM f T = some T' →
    T'.mimicSubtree = T.mimicSubtree := by
  intro l
  induction l with
  | nil => intro T T' h; simp only [List.foldlM_nil] at h; cases h; rfl
  | cons x l ih =>
    intro T T' h
    simp only [List.foldlM_cons, Option.bind_eq_bind, Option.bind_eq_some_iff] at h
    obtain ⟨T1, h1, h2⟩ := h
    rw [ih T1 T' h2, hf T x T1 h1]

theorem parentsRowTurn_keep {j : ℕ} {T T' : Tables} (h : m.parentsRowTurn j T = some T') : T'.mimicSubtree = T.mimicSubtree := by
  unfold parentsRowTurn at h
  iterate 15 obtain ⟨_, -, h⟩ := Option.bind_eq_some_iff.1 h
  have := foldlM_keep (fun T x T' h => parentsRowInner_keep h) _ _ _ h
  exact this

theorem mapM_length {α β : Type*} {f : α → Option β} : ∀ {l : List α} {l' : List β}, l.mapM f = some l' → l'.length = l.length := by
  intro l
  induction l with
  | nil => intro l' h; simp only [List.mapM_nil] at h; cases h; rfl
  | cons a l ih =>
    intro l' h
    simp only [List.mapM_cons, Option.bind_eq_bind, Option.bind_eq_some_iff] at h
    obtain ⟨b, -, l1, h1, h2⟩ := h
    cases h2
    simp [ih h1]

theorem dataTables_mimic {T : Tables} (h : m.dataTables = some T) : T.mimicSubtree.length = m.mimicking.length := by
  unfold dataTables computeLastChild at h
  simp only [Option.bind_eq_bind, Option.bind_eq_some_iff] at h
  obtain ⟨⟨last, sub, ms⟩, ⟨s, -, ms', hms, e⟩, T1, h1, S, -, h2⟩ := h
  cases e
  cases h2
  have hl := mapM_length hms
  have hl2 : ms.length = m.mimicking.length := by
    rw [hl]; simp
  rw [← hl2]
  exact congrArg List.length (foldlM_keep (fun T x T' h => parentsRowTurn_keep h) _ _ _ h1)
end

/-- the tables of a model with mimic joints describe its system -/
theorem mimTab_ok [Field K] [LinearOrder K] [IsStrictOrderedRing K] [HasEps K] {m : Model K (Joint K)} (h : Inv m) (hm : m.MimicOk)
    {t : MimTab} (ht : m.mimTab = some t) (j0 : Joint K) (g : Motion K)
    (hc : crbaCheck (m.toSys j0 g).par (m.toSys j0 g).n = true) : t.Ok (m.toSys j0 g) := by
  unfold Model.mimTab at ht
  simp only [Option.bind_eq_bind, Option.bind_eq_some_iff, Option.some.injEq] at ht
  obtain ⟨T, hT, rfl⟩ := ht
  have hlen := dataTables_mimic hT
  have hent : ∀ i, i < m.njoints → ∃ e, m.joints[i]? = some e := by
    intro i hi
    have hl : i < m.joints.length := by rw [h.lens.joints]; exact hi
    exact ⟨_, List.getElem?_eq_getElem hl⟩
  -- the entries of the system
  have hjnv : ∀ i e, m.joints[i]? = some e → (m.toSys j0 g).jnv i = e.desc.payload.nv := by
    intro i e he
    change ((m.joints[i]?.map (·.desc.payload)).getD j0).nv = _
    rw [he]; rfl
  have hiv : ∀ i e, m.joints[i]? = some e → (m.toSys j0 g).iv i = e.idx_v := by
    intro i e he
    change ((m.joints[i]?.map (·.idx_v)).getD 0) = _
    rw [he]; rfl
  have hnv : ∀ i e, m.joints[i]? = some e → m.nvs.getD i 0 = e.desc.nv := by
    intro i e he
    obtain ⟨-, -, -, -, -, hv, -⟩ := h.ent i e he
    rw [List.getD, hv]; rfl
  have hnvx : ∀ i e, m.joints[i]? = some e → m.nvxs.getD i 0 = e.desc.nvx := by
    intro i e he
    obtain ⟨-, -, -, -, -, -, hv, -⟩ := h.ent i e he
    rw [List.getD, hv]; rfl
  have hsumx : ∀ i, 1 ≤ i → i ≤ m.njoints → (m.nvxs.take i).sum = ∑ j ∈ Ico 1 i, (m.toSys j0 g).jnv j := by
    intro i h1 hi
    rw [sum_take _ _ (by rw [h.lens.nvxs]; exact hi), range_eq_Ico, sum_eq_sum_Ico_succ_bot (by omega), h.vx0, zero_add]
    apply sum_congr rfl
    intro j hj
    rw [mem_Ico] at hj
    obtain ⟨e, he⟩ := hent j (by omega)
    rw [hnvx j e he, hjnv j e he, hm.size j e (by omega) he]
  have hsum : ∀ i, 1 ≤ i → i ≤ m.njoints → (m.nvs.take i).sum = ∑ j ∈ Ico 1 i, m.nvs.getD j 0 := by
    intro i h1 hi
    rw [sum_take _ _ (by rw [h.lens.nvs]; exact hi), range_eq_Ico, sum_eq_sum_Ico_succ_bot (by omega), h.v0, zero_add]
  have hmims : (m.mimicking.zip T.mimicSubtree).map (·.1) = m.mimicking := by
    rw [List.map_fst_zip]; omega
  have hpar := toSys_parOk h j0 g
  refine ⟨⟨hpar, ?_, ?_⟩, hc, ?_, ?_, ?_, ?_, ?_, ?_, ?_, ?_⟩
  · intro i h1 hi
    obtain ⟨e, he⟩ := hent i hi
    change ((m.joints[i]?.map (·.idx_vx)).getD 0) = _
    obtain ⟨-, -, -, hvx, -⟩ := h.ent i e he
    have := h.idxvx i hi
    rw [List.getD, hvx] at this
    rw [he]
    exact this.trans (hsumx i h1 (le_of_lt hi))
  · change m.nvx = _
    rw [← h.vxsum]
    refine Eq.trans ?_ (hsumx m.njoints h.lens.pos le_rfl)
    rw [List.take_of_length_le (le_of_eq h.lens.nvxs)]
  · obtain ⟨e, he⟩ := hent 0 h.lens.pos
    rw [hiv 0 e he]
    have hz := hm.zero
    rw [he] at hz
    obtain ⟨-, -, -, -, -, -, -, hidx⟩ := h.ent 0 e he
    rw [(hidx hz).2]; rfl
  · intro i
    induction i using Nat.strong_induction_on with
    | _ i ih =>
      intro hi
      rcases Nat.eq_zero_or_pos i with rfl | h1
      · change m.supports.getD 0 [] = _
        rw [h.sup0]
        unfold Sys.sup
        rw [show path (m.toSys j0 g).par 0 = [] from by unfold path; exact treeRec_zero ..]
      · have hp := hpar.2 i h1 hi
        rw [sup_step hpar h1 hi, ← ih _ hp (by change _ < m.njoints at hi; change _ < m.njoints; omega)]
        exact h.sup i h1 hi
  · intro i h1 hi
    obtain ⟨e, he⟩ := hent i hi
    change m.nvs.getD i 0 = if ((m.joints[i]?.bind (·.desc.mimic)).map (·.1)).isSome then 0 else _
    rw [hnv i e he, hjnv i e he, he, Option.bind_some]
    cases hx : e.desc.mimic with
    | none => simp [hm.size i e h1 he, hm.plain i e h1 he hx]
    | some x => simp [(hm.mimic i e x h1 he hx).1]
  · intro i h1 hi hn
    obtain ⟨e, he⟩ := hent i hi
    replace hn : ((m.joints[i]?.bind (·.desc.mimic)).map (·.1)) = none := hn
    rw [he, Option.bind_some, Option.map_eq_none_iff] at hn
    obtain ⟨-, -, -, -, -, -, -, hidx⟩ := h.ent i e he
    rw [hiv i e he, (hidx hn).2]
    exact hsum i h1 (le_of_lt hi)
  · change m.nv = _
    rw [← h.vsum]
    refine Eq.trans ?_ (hsum m.njoints h.lens.pos le_rfl)
    rw [List.take_of_length_le (le_of_eq h.lens.nvs)]
  · intro i p h1 hi hp
    obtain ⟨e, he⟩ := hent i hi
    replace hp : ((m.joints[i]?.bind (·.desc.mimic)).map (·.1)) = some p := hp
    rw [he, Option.bind_some, Option.map_eq_some_iff] at hp
    obtain ⟨x, hx, rfl⟩ := hp
    obtain ⟨-, nx, hlt, e', he', hn', hv', hn1⟩ := hm.mimic i e x h1 he hx
    refine ⟨hlt, ?_, ?_, ?_, ?_⟩
    · change ((m.joints[x.1]?.bind (·.desc.mimic)).map (·.1)) = none
      rw [he', Option.bind_some, hn']; rfl
    · rw [hiv i e he, hiv x.1 e' he', hv']
    · rw [hjnv i e he, hm.size i e h1 he, nx]
    · rw [hjnv x.1 e' he', hm.size x.1 e' hlt.1 he', hm.plain x.1 e' hlt.1 he' hn', hn1]
  · change ((m.mimicking.zip T.mimicSubtree).map (·.1)).Pairwise _
    rw [hmims, hm.list]
    exact List.Pairwise.filter _ List.pairwise_lt_range
  · intro i
    change i ∈ (m.mimicking.zip T.mimicSubtree).map (·.1) ↔ (1 ≤ i ∧ i < m.njoints) ∧
      ((m.joints[i]?.bind (·.desc.mimic)).map (·.1)).isSome
    rw [hmims, hm.list, List.mem_filter, List.mem_range, Option.isSome_map]
    constructor
    · rintro ⟨a, b⟩
      refine ⟨⟨?_, a⟩, b⟩
      rcases Nat.eq_zero_or_pos i with rfl | h1
      · rw [hm.zero] at b; simp at b
      · exact h1
    · rintro ⟨⟨-, a⟩, b⟩
      exact ⟨a, b⟩

section
variable [Field K] [LinearOrder K] [HasEps K]

/-- what the calls that add frames and bodies keep -/
def KeepJ (m m' : Model K P) : Prop := m'.joints = m.joints ∧ m'.njoints = m.njoints ∧ m'.mimicking = m.mimicking

theorem keep_addFrame {m m' : Model K P} (f : Frame K) (b : Bool) (hs : Res.state (m.addFrame f b) = some m') : KeepJ m m' := by
  unfold addFrame at hs
  split at hs
  · simp [Res.state] at hs; exact hs ▸ ⟨rfl, rfl, rfl⟩
  · split at hs
    · split at hs <;> simp [Res.state] at hs <;> exact hs ▸ ⟨rfl, rfl, rfl⟩
    · simp [Res.state] at hs
      exact hs ▸ ⟨rfl, rfl, rfl⟩

theorem keep_addJointFrame {m m' : Model K P} (j : ℕ) (p : Option ℕ) (hs : Res.state (m.addJointFrame j p) = some m') :
    KeepJ m m' := by
  unfold addJointFrame at hs
  split at hs
  · simp [Res.state] at hs; exact hs ▸ ⟨rfl, rfl, rfl⟩
  · split at hs
    · simp [Res.state] at hs; exact hs ▸ ⟨rfl, rfl, rfl⟩
    · exact keep_addFrame _ _ hs

theorem keep_addBodyFrame {m m' : Model K P} (s : String) (j : ℕ) (M : SE3 K) (p : Option ℕ)
    (hs : Res.state (m.addBodyFrame s j M p) = some m') : KeepJ m m' := by
  unfold addBodyFrame at hs
  split at hs
  · split at hs
    · simp [Res.state] at hs
    · split at hs
      · simp [Res.state] at hs; exact hs ▸ ⟨rfl, rfl, rfl⟩
      · split at hs
        · simp [Res.state] at hs; exact hs ▸ ⟨rfl, rfl, rfl⟩
        · exact keep_addFrame _ _ hs
  · split at hs
    · simp [Res.state] at hs; exact hs ▸ ⟨rfl, rfl, rfl⟩
    · exact keep_addFrame _ _ hs

theorem keep_appendBody {m m' : Model K P} (j : ℕ) (Y : Inertia K) (M : SE3 K)
    (hs : Res.state (m.appendBodyToJoint j Y M) = some m') : KeepJ m m' := by
  unfold appendBodyToJoint at hs
  split at hs
  · simp [Res.state] at hs
  · simp [Res.state] at hs
    exact hs ▸ ⟨rfl, rfl, rfl⟩

omit [LinearOrder K] [HasEps K] in
theorem addJoint_mimicking {m m' : Model K P} {a : JointArgs K P} {i : ℕ} (h : m.addJoint a = .ok m' i) :
    m'.mimicking = if a.joint.mimic.isSome then m.mimicking ++ [m.njoints] else m.mimicking := by
  unfold addJoint at h
  dsimp only at h
  repeat' split at h
  all_goals first | (cases h; done) | (injection h with h _; subst h; simp_all)

/-- in a model built by construction calls the universe is not a mimic joint and `mimicking_joints` lists the mimic joints -/
theorem reach_mimicking {p0 : P} {m : Model K P} (h : Reach p0 m) :
    (m.joints[0]?.bind (·.desc.mimic)) = none ∧
    m.mimicking = (List.range m.njoints).filter (fun i => (m.joints[i]?.bind (·.desc.mimic)).isSome) := by
  induction h with
  | init => exact ⟨rfl, rfl⟩
  | @step m m' op hr hok hs ih =>
    have hi := hr.inv
    have keep : KeepJ m m' → (m'.joints[0]?.bind (·.desc.mimic)) = none ∧ m'.mimicking =
        (List.range m'.njoints).filter (fun i => (m'.joints[i]?.bind (·.desc.mimic)).isSome) := fun k => by
      obtain ⟨a, b, c⟩ := k
      rw [a, b, c]; exact ih
    cases op with
    | addJoint a =>
      rcases addJoint_cases m a hi hok with ⟨-, he⟩ | ⟨hA, e, m2, he, ad⟩
      · simp only [step, he, Res.state, Option.some.injEq] at hs; exact hs ▸ ih
      · simp only [step, he, Res.state, Option.some.injEq] at hs
        subst hs
        have hl := hi.lens.joints
        have hp := hi.lens.pos
        refine ⟨?_, ?_⟩
        · rw [ad.joints, List.getElem?_append_left (by omega)]; exact ih.1
        · rw [addJoint_mimicking he, ad.njoints, List.range_succ, List.filter_append, ih.2]
          have e1 : (List.range m.njoints).filter (fun i => (m2.joints[i]?.bind (·.desc.mimic)).isSome)
              = (List.range m.njoints).filter (fun i => (m.joints[i]?.bind (·.desc.mimic)).isSome) := by
            apply List.filter_congr
            intro i hi'
            rw [List.mem_range] at hi'
            rw [ad.joints, List.getElem?_append_left (by omega)]
          have e2 : m2.joints[m.njoints]? = some e := by
            rw [ad.joints, List.getElem?_append_right (by omega), hl]; simp
          rw [e1]
          cases hm : a.joint.mimic with
          | none => simp [e2, ad.desc, hm]
          | some x => simp [e2, ad.desc, hm]
    | addFrame f b => exact keep (keep_addFrame f b hs)
    | addJointFrame j p => exact keep (keep_addJointFrame j p hs)
    | appendBody j Y M => exact keep (keep_appendBody j Y M hs)
    | addBodyFrame s j M p => exact keep (keep_addBodyFrame s j M p hs)
end
end Pin.Model
