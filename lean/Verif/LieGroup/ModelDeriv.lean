import Verif.LieGroup.GroupDiff

/-! # Derivatives of the operations on the configurations of a model -/

namespace Pin
namespace Lie
open Real Spec

/-- write the rows of a joint -/
def writeRows (F : Slot → (ℕ → ℕ → ℝ) → ℕ → ℕ → ℝ) (J : ℕ → ℕ → ℝ) (s : Slot) : ℕ → ℕ → ℝ :=
  fun i j => if s.iv ≤ i ∧ i < s.iv + s.g.nv then F s J (i - s.iv) j else J i j

theorem fold_rows {F : Slot → (ℕ → ℕ → ℝ) → ℕ → ℕ → ℝ}
    (hF : ∀ s J J', (∀ a, a < s.g.nv → ∀ j, J (s.iv + a) j = J' (s.iv + a) j) → ∀ a, a < s.g.nv → ∀ j, F s J a j = F s J' a j)
    {lo hi : ℕ} {l : List Slot} (h : Tiles Slot.iv (fun s => s.g.nv) lo l hi) (J : ℕ → ℕ → ℝ) :
    (∀ s ∈ l, ∀ a, a < s.g.nv → ∀ j, l.foldl (writeRows F) J (s.iv + a) j = F s J a j) ∧
    (∀ i, i < lo ∨ hi ≤ i → ∀ j, l.foldl (writeRows F) J i j = J i j) := by
  induction l generalizing lo J with
  | nil => exact ⟨fun s hs => absurd hs List.not_mem_nil, fun _ _ _ => rfl⟩
  | cons t l ih =>
    obtain ⟨h1, h2⟩ := h
    obtain ⟨i1, i2⟩ := ih h2 (writeRows F J t)
    have hle := h2.le
    dsimp only at h1 h2 hle i2
    refine ⟨fun s hs a ha j => ?_, fun i hi j => ?_⟩
    · rw [List.foldl_cons]
      rcases List.mem_cons.1 hs with rfl | hs
      · rw [i2 _ (.inl (by omega))]
        unfold writeRows
        rw [if_pos ⟨by omega, by omega⟩, Nat.add_sub_cancel_left]
      · rw [i1 s hs a ha j]
        have hm := h2.mem hs
        refine hF s _ _ (fun b hb k => ?_) a ha j
        unfold writeRows
        rw [if_neg (by omega)]
    · rw [List.foldl_cons, i2 i (by omega)]
      unfold writeRows
      rw [if_neg (by omega)]

/-- `s`'s block of a matrix, and what is beside it -/
def blockF (f : Slot → ℝ → ℕ → ℕ → ℝ) (s : Slot) (J : ℕ → ℕ → ℝ) (a j : ℕ) : ℝ :=
  if s.iv ≤ j ∧ j < s.iv + s.g.nv then f s (J (s.iv + a) j) a (j - s.iv) else J (s.iv + a) j

theorem blockF_congr (f : Slot → ℝ → ℕ → ℕ → ℝ) : ∀ s (J J' : ℕ → ℕ → ℝ),
    (∀ a, a < s.g.nv → ∀ j, J (s.iv + a) j = J' (s.iv + a) j) → ∀ a, a < s.g.nv → ∀ j, blockF f s J a j = blockF f s J' a j :=
  fun s J J' h a ha j => by unfold blockF; rw [h a ha j]

theorem dIntegrateStep_eq (ε : ℝ) (v : ℕ → ℝ) (arg : Arg) (op : Op) : dIntegrateStep ε v arg op =
    writeRows (blockF fun s x a b => op.ap x (s.g.dInt ε arg (seg v s.iv) a b)) := by
  funext J s i j
  unfold dIntegrateStep writeRows blockF
  by_cases h1 : s.iv ≤ i ∧ i < s.iv + s.g.nv
  · rw [if_pos h1, Nat.add_sub_cancel' h1.1]
    by_cases h2 : s.iv ≤ j ∧ j < s.iv + s.g.nv
    · rw [if_pos ⟨h1, h2⟩, if_pos h2]
    · rw [if_neg (fun h => h2 h.2), if_neg h2]
  · rw [if_neg (fun h => h1 h.1), if_neg h1]

theorem dDifferenceStep_eq (ε : ℝ) (q0 q1 : ℕ → ℝ) (arg : Arg) : dDifferenceStep ε q0 q1 arg =
    writeRows (blockF fun s _ a b => s.g.dDiff ε arg (seg q0 s.iq) (seg q1 s.iq) a b) := by
  funext J s i j
  unfold dDifferenceStep writeRows blockF
  by_cases h1 : s.iv ≤ i ∧ i < s.iv + s.g.nv
  · rw [if_pos h1, Nat.add_sub_cancel' h1.1]
    by_cases h2 : s.iv ≤ j ∧ j < s.iv + s.g.nv
    · rw [if_pos ⟨h1, h2⟩, if_pos h2]
    · rw [if_neg (fun h => h2 h.2), if_neg h2]
  · rw [if_neg (fun h => h1 h.1), if_neg h1]

variable {m : Model ℝ LJ} {ε : ℝ}

/-- rows of `dIntegrate` -/
theorem dIntegrate_spec (h : Model.Inv m) (hp : PayloadOk m) (q v : ℕ → ℝ) (J : ℕ → ℕ → ℝ) (arg : Arg) (op : Op) :
    (∀ s ∈ slotsOf m, ∀ a, a < s.g.nv → (∀ b, b < s.g.nv → dIntegrate ε m q v J arg op (s.iv + a) (s.iv + b) =
        op.ap (J (s.iv + a) (s.iv + b)) (s.g.dInt ε arg (seg v s.iv) a b)) ∧
      ∀ j, ¬(s.iv ≤ j ∧ j < s.iv + s.g.nv) → dIntegrate ε m q v J arg op (s.iv + a) j = J (s.iv + a) j) ∧
    ∀ i, m.nv ≤ i → ∀ j, dIntegrate ε m q v J arg op i j = J i j := by
  have := fold_rows (blockF_congr fun s x a b => op.ap x (s.g.dInt ε arg (seg v s.iv) a b)) (slotsOf_tiles h hp).2 J
  rw [← dIntegrateStep_eq] at this
  refine ⟨fun s hs a ha => ⟨fun b hb => ?_, fun j hj => ?_⟩, fun i hi j => this.2 i (.inr hi) j⟩
  · unfold dIntegrate
    rw [this.1 s hs a ha, blockF, if_pos ⟨by omega, by omega⟩, Nat.add_sub_cancel_left]
  · unfold dIntegrate
    rw [this.1 s hs a ha, blockF, if_neg hj]

/-- rows of `dDifference` -/
theorem dDifference_spec (h : Model.Inv m) (hp : PayloadOk m) (q0 q1 : ℕ → ℝ) (J : ℕ → ℕ → ℝ) (arg : Arg) :
    (∀ s ∈ slotsOf m, ∀ a, a < s.g.nv → (∀ b, b < s.g.nv → dDifference ε m q0 q1 J arg (s.iv + a) (s.iv + b) =
        s.g.dDiff ε arg (seg q0 s.iq) (seg q1 s.iq) a b) ∧
      ∀ j, ¬(s.iv ≤ j ∧ j < s.iv + s.g.nv) → dDifference ε m q0 q1 J arg (s.iv + a) j = J (s.iv + a) j) ∧
    ∀ i, m.nv ≤ i → ∀ j, dDifference ε m q0 q1 J arg i j = J i j := by
  have := fold_rows (blockF_congr fun s _ a b => s.g.dDiff ε arg (seg q0 s.iq) (seg q1 s.iq) a b) (slotsOf_tiles h hp).2 J
  rw [← dDifferenceStep_eq] at this
  refine ⟨fun s hs a ha => ⟨fun b hb => ?_, fun j hj => ?_⟩, fun i hi j => this.2 i (.inr hi) j⟩
  · unfold dDifference
    rw [this.1 s hs a ha, blockF, if_pos ⟨by omega, by omega⟩, Nat.add_sub_cancel_left]
  · unfold dDifference
    rw [this.1 s hs a ha, blockF, if_neg hj]

/-- rows of `dIntegrateTransport` -/
theorem transport_spec (h : Model.Inv m) (hp : PayloadOk m) (q v : ℕ → ℝ) (Jin J : ℕ → ℕ → ℝ) (arg : Arg) :
    (∀ s ∈ slotsOf m, ∀ a, a < s.g.nv → ∀ j, dIntegrateTransport ε m q v Jin J arg (s.iv + a) j =
      ∑ k ∈ Finset.range s.g.nv, s.g.dInt ε arg (seg v s.iv) a k * Jin (s.iv + k) j) ∧
    ∀ i, m.nv ≤ i → ∀ j, dIntegrateTransport ε m q v Jin J arg i j = J i j := by
  have := fold_rows (F := fun s _ a j => ∑ k ∈ Finset.range s.g.nv, s.g.dInt ε arg (seg v s.iv) a k * Jin (s.iv + k) j)
    (fun _ _ _ _ _ _ _ => rfl) (slotsOf_tiles h hp).2 J
  exact ⟨this.1, fun i hi j => this.2 i (.inr hi) j⟩

/-- rows of the in-place `dIntegrateTransport` -/
theorem transport_inplace_spec (h : Model.Inv m) (hp : PayloadOk m) (q v : ℕ → ℝ) (J : ℕ → ℕ → ℝ) (arg : Arg) :
    (∀ s ∈ slotsOf m, ∀ a, a < s.g.nv → ∀ j, dIntegrateTransportInPlace ε m q v J arg (s.iv + a) j =
      ∑ k ∈ Finset.range s.g.nv, s.g.dInt ε arg (seg v s.iv) a k * J (s.iv + k) j) ∧
    ∀ i, m.nv ≤ i → ∀ j, dIntegrateTransportInPlace ε m q v J arg i j = J i j := by
  have := fold_rows (F := fun s J a j => ∑ k ∈ Finset.range s.g.nv, s.g.dInt ε arg (seg v s.iv) a k * J (s.iv + k) j)
    (fun s J J' hJ a _ j => Finset.sum_congr rfl fun k hk => by rw [hJ k (Finset.mem_range.1 hk)]) (slotsOf_tiles h hp).2 J
  exact ⟨this.1, fun i hi j => this.2 i (.inr hi) j⟩

/-- the product with a block row -/
theorem apply_block {J : ℕ → ℕ → ℝ} {s : Slot} {n a : ℕ} (hs : s.iv + s.g.nv ≤ n) (x : ℕ → ℝ)
    (h0 : ∀ j, ¬(s.iv ≤ j ∧ j < s.iv + s.g.nv) → J (s.iv + a) j = 0) :
    Spec.apply n J x (s.iv + a) = Spec.apply s.g.nv (fun a b => J (s.iv + a) (s.iv + b)) (seg x s.iv) a := by
  unfold Spec.apply
  have : ∑ j ∈ Finset.range n, J (s.iv + a) j * x j = ∑ j ∈ Finset.Ico s.iv (s.iv + s.g.nv), J (s.iv + a) j * x j := by
    refine (Finset.sum_subset (fun j hj => ?_) fun j _ hj => ?_).symm
    · rw [Finset.mem_Ico] at hj; rw [Finset.mem_range]; omega
    · rw [h0 j (fun h => hj (Finset.mem_Ico.2 h)), zero_mul]
  rw [this, Finset.sum_Ico_eq_sum_range, Nat.add_sub_cancel_left]
  rfl

theorem confVel_congr (g : LG) {q : ℝ → ℕ → ℝ} {δ δ' : ℕ → ℝ} {t : ℝ} (h : ConfVel g q δ t)
    (e : Same g.nv δ δ') : ConfVel g q δ' t := by
  cases g with
  | vec n => exact fun k hk => e k hk ▸ h k hk
  | so2 =>
    have : twistOf .so2 δ' = twistOf .so2 δ := by unfold twistOf; rw [e 0 (by simp [LG.nv])]
    exact BodyVel.congr h this.symm
  | so3 =>
    have : twistOf .so3 δ' = twistOf .so3 δ := by
      unfold twistOf; rw [vecAt_congr e (by simp [LG.nv])]
    exact BodyVel.congr h this.symm
  | se2 =>
    have : twistOf .se2 δ' = twistOf .se2 δ := by
      unfold twistOf; rw [e 0 (by simp [LG.nv]), e 1 (by simp [LG.nv]), e 2 (by simp [LG.nv])]
    exact BodyVel.congr h this.symm
  | se3 =>
    have : twistOf .se3 δ' = twistOf .se3 δ := by
      unfold twistOf; rw [vecAt_congr e (by simp [LG.nv]), vecAt_congr e (by simp [LG.nv])]
    exact BodyVel.congr h this.symm

/-- block diagonal matrix -/
noncomputable def blocks (m : Model ℝ LJ) (f : Slot → ℕ → ℕ → ℝ) : ℕ → ℕ → ℝ :=
  (slotsOf m).foldl (writeRows (blockF fun s _ a b => f s a b)) fun _ _ => 0

theorem blocks_spec (h : Model.Inv m) (hp : PayloadOk m) (f : Slot → ℕ → ℕ → ℝ) :
    ∀ s ∈ slotsOf m, ∀ a, a < s.g.nv → (∀ b, b < s.g.nv → blocks m f (s.iv + a) (s.iv + b) = f s a b) ∧
      ∀ j, ¬(s.iv ≤ j ∧ j < s.iv + s.g.nv) → blocks m f (s.iv + a) j = 0 := by
  have := (fold_rows (blockF_congr fun s _ a b => f s a b) (slotsOf_tiles h hp).2 fun _ _ => 0).1
  refine fun s hs a ha => ⟨fun b hb => ?_, fun j hj => ?_⟩
  · unfold blocks
    rw [this s hs a ha, blockF, if_pos ⟨by omega, by omega⟩, Nat.add_sub_cancel_left]
  · unfold blocks
    rw [this s hs a ha, blockF, if_neg hj]

/-- derivative of a step of the model -/
theorem d_model_step (he : 0 < ε) (h : Model.Inv m) (hp : PayloadOk m) {q v out : ℝ → ℕ → ℝ} {δ v' : ℕ → ℝ} {t : ℝ}
    (hok : ∀ s ∈ slotsOf m, StepOk ε s.g (seg (v t) s.iv)) (hq : ModelVel m q δ t)
    (hv : ∀ k, k < m.nv → HasDerivAt (fun s => v s k) (v' k) t) (hs : ∀ s, ModelStep m (q s) (v s) (out s))
    {J : ℕ → ℕ → ℝ} (hJ : OffZero m J) :
    ModelVel m out (fun i => Spec.apply m.nv (blocks m fun s => adInv ε s.g (seg (v t) s.iv)) δ i +
      Spec.apply m.nv (dIntegrate ε m (q t) (v t) J .arg1 .setto) v' i) t := by
  intro s hs'
  have hr := (slot_range h hp hs').2
  have key := d_step he s.g (q := fun τ => seg (q τ) s.iq) (v := fun τ => seg (v τ) s.iv)
    (out := fun τ => seg (out τ) s.iq) (δ := seg δ s.iv) (v' := seg v' s.iv) (hok s hs') (hq s hs')
    (fun k hk => hv (s.iv + k) (by omega)) (fun τ => hs τ s hs')
  refine confVel_congr _ key fun a ha => ?_
  have b1 := blocks_spec h hp (fun s => adInv ε s.g (seg (v t) s.iv)) s hs' a ha
  have b2 := (dIntegrate_spec (ε := ε) h hp (q t) (v t) J .arg1 .setto).1 s hs' a ha
  show _ = Spec.apply m.nv _ δ (s.iv + a) + Spec.apply m.nv _ v' (s.iv + a)
  rw [apply_block hr δ b1.2, apply_block hr v' (fun j hj => (b2.2 j hj).trans (hJ s hs' _ _ ⟨by omega, by omega⟩ hj))]
  unfold Spec.apply
  congr 1
  · refine Finset.sum_congr rfl fun b hb => ?_
    dsimp only
    rw [b1.1 b (Finset.mem_range.1 hb)]
  · refine Finset.sum_congr rfl fun b hb => ?_
    dsimp only
    rw [b2.1 b (Finset.mem_range.1 hb)]
    rfl

/-- derivative of a difference in the model -/
theorem d_model_diff (he : 0 < ε) (h1 : ε ≤ 1) (h : Model.Inv m) (hp : PayloadOk m) {q0 q1 d : ℝ → ℕ → ℝ}
    {δ0 δ1 : ℕ → ℝ} {t : ℝ} (hok : ∀ s ∈ slotsOf m, DiffOk ε s.g (seg (d t) s.iv))
    (u0 : ∀ τ, ∀ s ∈ slotsOf m, s.g.Unit (seg (q0 τ) s.iq)) (u1 : ∀ τ, ∀ s ∈ slotsOf m, s.g.Unit (seg (q1 τ) s.iq))
    (hq0 : ModelVel m q0 δ0 t) (hq1 : ModelVel m q1 δ1 t) (hd : ∀ τ, ModelDiff m (q0 τ) (q1 τ) (d τ))
    {J0 J1 : ℕ → ℕ → ℝ} (hJ0 : OffZero m J0) (hJ1 : OffZero m J1) {k : ℕ} (hk : k < m.nv) :
    HasDerivAt (fun s => d s k) (Spec.apply m.nv (dDifference ε m (q0 t) (q1 t) J0 .arg0) δ0 k +
      Spec.apply m.nv (dDifference ε m (q0 t) (q1 t) J1 .arg1) δ1 k) t := by
  obtain ⟨i, ⟨s, hi, h2, h3⟩, -⟩ := (slotsOf_tiles h hp).2.cover (Nat.zero_le k) hk
  have hs : s ∈ slotsOf m := List.mem_of_getElem? hi
  obtain ⟨a, rfl⟩ := Nat.exists_eq_add_of_le h2
  have ha : a < s.g.nv := by omega
  have hr := (slot_range h hp hs).2
  have key := d_diff he h1 s.g (q0 := fun τ => seg (q0 τ) s.iq) (q1 := fun τ => seg (q1 τ) s.iq)
    (d := fun τ => seg (d τ) s.iv) (δ0 := seg δ0 s.iv) (δ1 := seg δ1 s.iv) (t := t) (hok s hs) (fun τ => u0 τ s hs)
    (fun τ => u1 τ s hs) (hq0 s hs) (hq1 s hs) (fun τ => hd τ s hs) a ha
  have b0 := (dDifference_spec (ε := ε) h hp (q0 t) (q1 t) J0 .arg0).1 s hs a ha
  have b1 := (dDifference_spec (ε := ε) h hp (q0 t) (q1 t) J1 .arg1).1 s hs a ha
  rw [apply_block hr δ0 (fun j hj => (b0.2 j hj).trans (hJ0 s hs _ _ ⟨by omega, by omega⟩ hj)),
    apply_block hr δ1 (fun j hj => (b1.2 j hj).trans (hJ1 s hs _ _ ⟨by omega, by omega⟩ hj))]
  refine key.congr_deriv ?_
  unfold Spec.apply
  congr 1
  · refine Finset.sum_congr rfl fun b hb => ?_
    dsimp only
    rw [b0.1 b (Finset.mem_range.1 hb)]
  · refine Finset.sum_congr rfl fun b hb => ?_
    dsimp only
    rw [b1.1 b (Finset.mem_range.1 hb)]

/-! ## hypotheses near the time only -/

open Filter Topology in
theorem confVel_eventually (g : LG) {q q' : ℝ → ℕ → ℝ} {δ : ℕ → ℝ} {t : ℝ} (h : ConfVel g q δ t)
    (e : ∀ᶠ s in 𝓝 t, q' s = q s) : ConfVel g q' δ t := by
  have key : ∀ g : LG, BodyVel (fun s => poseOf g (q s)) (twistOf g δ) t →
      BodyVel (fun s => poseOf g (q' s)) (twistOf g δ) t := fun g h => by
    have e0 : poseOf g (q' t) = poseOf g (q t) := by rw [e.self_of_nhds]
    have e1 : ∀ᶠ s in 𝓝 t, (poseOf g (q' s)).rot = (poseOf g (q s)).rot := e.mono fun s hs => by rw [hs]
    have e2 : ∀ᶠ s in 𝓝 t, (poseOf g (q' s)).trans = (poseOf g (q s)).trans := e.mono fun s hs => by rw [hs]
    refine ⟨?_, ?_⟩
    · have := md_eventually h.ang e1
      have e3 : (poseOf g (q' t)).rot = (poseOf g (q t)).rot := by rw [e0]
      unfold AngVel
      dsimp only at this ⊢
      rw [e3]
      exact this
    · have := vd_eventually h.lin e2
      rw [e0]
      exact this
  cases g with
  | vec n => exact fun k hk => (h k hk).congr_of_eventuallyEq (e.mono fun s hs => by simp only [hs])
  | so2 => exact key _ h
  | so3 => exact key _ h
  | se2 => exact key _ h
  | se3 => exact key _ h

open Filter Topology in
theorem modelVel_eventually {q q' : ℝ → ℕ → ℝ} {δ : ℕ → ℝ} {t : ℝ} (h : ModelVel m q δ t)
    (e : ∀ᶠ s in 𝓝 t, q' s = q s) : ModelVel m q' δ t :=
  fun s hs => confVel_eventually s.g (h s hs) (e.mono fun τ hτ => by rw [hτ])

open Classical in
/-- the curve, kept at its value at `t` when `P` does not hold -/
noncomputable def freeze {X : Type} (P : ℝ → Prop) (f : ℝ → X) (t s : ℝ) : X := if P s then f s else f t

theorem freeze_pos {X : Type} {P : ℝ → Prop} {f : ℝ → X} {t s : ℝ} (h : P s) : freeze P f t s = f s := if_pos h

theorem freeze_self {X : Type} {P : ℝ → Prop} {f : ℝ → X} {t : ℝ} : freeze P f t t = f t := by
  unfold freeze; split <;> rfl

open Filter Topology in
theorem freeze_eventually {X : Type} {P : ℝ → Prop} (f : ℝ → X) {t : ℝ} (h : ∀ᶠ s in 𝓝 t, P s) :
    ∀ᶠ s in 𝓝 t, freeze P f t s = f s := h.mono fun _ hs => freeze_pos hs

open Filter Topology in
theorem d_model_step' (he : 0 < ε) (h : Model.Inv m) (hp : PayloadOk m) {q v out : ℝ → ℕ → ℝ} {δ v' : ℕ → ℝ} {t : ℝ}
    (hok : ∀ s ∈ slotsOf m, StepOk ε s.g (seg (v t) s.iv)) (hq : ModelVel m q δ t)
    (hv : ∀ k, k < m.nv → HasDerivAt (fun s => v s k) (v' k) t) (hs : ∀ᶠ s in 𝓝 t, ModelStep m (q s) (v s) (out s))
    {J : ℕ → ℕ → ℝ} (hJ : OffZero m J) :
    ModelVel m out (fun i => Spec.apply m.nv (blocks m fun s => adInv ε s.g (seg (v t) s.iv)) δ i +
      Spec.apply m.nv (dIntegrate ε m (q t) (v t) J .arg1 .setto) v' i) t := by
  let P : ℝ → Prop := fun s => ModelStep m (q s) (v s) (out s)
  have key := d_model_step he h hp (q := freeze P q t) (v := freeze P v t) (out := freeze P out t) (t := t) (δ := δ)
    (v' := v') (by rw [freeze_self]; exact hok) (modelVel_eventually hq (freeze_eventually q hs))
    (fun k hk => (hv k hk).congr_of_eventuallyEq ((freeze_eventually v hs).mono fun s e => congrFun e k))
    (fun s => by
      unfold freeze
      by_cases c : P s
      · simp only [if_pos c]; exact c
      · simp only [if_neg c]; exact hs.self_of_nhds) hJ
  rw [freeze_self, freeze_self] at key
  exact modelVel_eventually key ((freeze_eventually out hs).mono fun s e => e.symm)

open Filter Topology in
theorem d_model_diff' (he : 0 < ε) (h1 : ε ≤ 1) (h : Model.Inv m) (hp : PayloadOk m) {q0 q1 d : ℝ → ℕ → ℝ}
    {δ0 δ1 : ℕ → ℝ} {t : ℝ} (hok : ∀ s ∈ slotsOf m, DiffOk ε s.g (seg (d t) s.iv))
    (u0 : ∀ᶠ τ in 𝓝 t, ∀ s ∈ slotsOf m, s.g.Unit (seg (q0 τ) s.iq))
    (u1 : ∀ᶠ τ in 𝓝 t, ∀ s ∈ slotsOf m, s.g.Unit (seg (q1 τ) s.iq))
    (hq0 : ModelVel m q0 δ0 t) (hq1 : ModelVel m q1 δ1 t) (hd : ∀ᶠ τ in 𝓝 t, ModelDiff m (q0 τ) (q1 τ) (d τ))
    {J0 J1 : ℕ → ℕ → ℝ} (hJ0 : OffZero m J0) (hJ1 : OffZero m J1) {k : ℕ} (hk : k < m.nv) :
    HasDerivAt (fun s => d s k) (Spec.apply m.nv (dDifference ε m (q0 t) (q1 t) J0 .arg0) δ0 k +
      Spec.apply m.nv (dDifference ε m (q0 t) (q1 t) J1 .arg1) δ1 k) t := by
  let P : ℝ → Prop := fun τ => (∀ s ∈ slotsOf m, s.g.Unit (seg (q0 τ) s.iq)) ∧
    (∀ s ∈ slotsOf m, s.g.Unit (seg (q1 τ) s.iq)) ∧ ModelDiff m (q0 τ) (q1 τ) (d τ)
  have hP : ∀ᶠ τ in 𝓝 t, P τ := u0.and (u1.and hd)
  have h0 : P t := hP.self_of_nhds
  have key := d_model_diff he h1 h hp (q0 := freeze P q0 t) (q1 := freeze P q1 t) (d := freeze P d t) (t := t)
    (δ0 := δ0) (δ1 := δ1) (by rw [freeze_self]; exact hok)
    (fun s => by
      unfold freeze
      by_cases c : P s
      · simp only [if_pos c]; exact c.1
      · simp only [if_neg c]; exact h0.1)
    (fun s => by
      unfold freeze
      by_cases c : P s
      · simp only [if_pos c]; exact c.2.1
      · simp only [if_neg c]; exact h0.2.1)
    (modelVel_eventually hq0 (freeze_eventually q0 hP)) (modelVel_eventually hq1 (freeze_eventually q1 hP))
    (fun s => by
      unfold freeze
      by_cases c : P s
      · simp only [if_pos c]; exact c.2.2
      · simp only [if_neg c]; exact h0.2.2) hJ0 hJ1 hk
  rw [freeze_self, freeze_self] at key
  exact key.congr_of_eventuallyEq ((freeze_eventually d hP).mono fun s e => (congrFun e k).symm)

end Lie
end Pin
