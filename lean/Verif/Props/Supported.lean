import Verif.Algo.Supported
import Verif.Algo.ComJacLemmas
import Verif.Algo.CrbaLemmas
import Verif.Algo.TorqueVariation
import Verif.Algo.Examples
import Verif.Props.Kinematics
import Verif.Props.Construction

/-!
# C72: the inertia and the force supported by a frame
-/

namespace Pin
open Finset

/-! ## Specification -/

/-- the frame `i` is `f`, or is on the same joint and its parent frame comes after `f` -/
inductive After {K : Type*} (frames : ℕ → Frame K) (f : ℕ) : ℕ → Prop
  | self : After frames f f
  | child {i : ℕ} : After frames f (frames i).parentFrame → (frames i).parentJoint = (frames f).parentJoint →
      After frames f i

/-- the frames at or after `f` on the same joint -/
noncomputable def framesAfter {K : Type*} (frames : ℕ → Frame K) (nframes f : ℕ) : Finset ℕ :=
  open Classical in (range nframes).filter (After frames f)

/-- every frame but the first one has been added after its parent frame -/
def FramesOk {K : Type*} (frames : ℕ → Frame K) (nframes : ℕ) : Prop :=
  (frames 0).parentFrame = 0 ∧ ∀ i, 1 ≤ i → i < nframes → (frames i).parentFrame < i

section
variable {K : Type*} [CommRing K]

/-- the momentum, in the world, of a body of inertia `I` placed at `M` which has the spatial velocity `w` -/
def momentum (M : SE3 K) (I : Inertia K) (w : Motion K) : Force K := M.actF (I.mul (M.actInv w))

/-- the force, in the world, which gives to a body of inertia `I` placed at `M` the spatial velocity `w` and the spatial
acceleration `a` (Newton and Euler) -/
def wrench (M : SE3 K) (I : Inertia K) (w a : Motion K) : Force K :=
  momentum M I a + w.crossF (momentum M I w)
end

/-! ## Lemmas -/

theorem After.ge {K : Type*} {frames : ℕ → Frame K} {nframes f i : ℕ} (ho : FramesOk frames nframes)
    (h : After frames f i) (hi : i < nframes) : f ≤ i := by
  induction h with
  | self => exact le_rfl
  | @child i h1 _ ih =>
    rcases Nat.eq_zero_or_pos i with rfl | hp
    · rw [ho.1] at ih; exact ih hi
    · have := ho.2 i hp hi
      have := ih (by omega)
      omega

theorem After.cases {K : Type*} {frames : ℕ → Frame K} {f i : ℕ} (h : After frames f i) :
    i = f ∨ After frames f (frames i).parentFrame ∧ (frames i).parentJoint = (frames f).parentJoint := by
  cases h with
  | self => exact Or.inl rfl
  | child a b => exact Or.inr ⟨a, b⟩

section
variable {K : Type*} [CommRing K]

theorem SE3.actF_sum' {ι : Type*} (M : SE3 K) (S : Finset ι) (g : ι → Force K) :
    M.actF (∑ i ∈ S, g i) = ∑ i ∈ S, M.actF (g i) := by
  classical
  induction S using Finset.induction_on with
  | empty => simp
  | insert a S ha ih => rw [sum_insert ha, sum_insert ha, SE3.actF_add, ih]

theorem Motion.crossF_sum' {ι : Type*} (v : Motion K) (S : Finset ι) (g : ι → Force K) :
    v.crossF (∑ i ∈ S, g i) = ∑ i ∈ S, v.crossF (g i) := by
  classical
  induction S using Finset.induction_on with
  | empty => simp
  | insert a S ha ih => rw [sum_insert ha, sum_insert ha, Motion.crossF_add, ih]

theorem momentum_mul {M P : SE3 K} (hM : M.Valid) (hP : P.Valid) (I : Inertia K) (x : Motion K) :
    M.actF (momentum P I x) = momentum (M * P) I (M.act x) := by
  unfold momentum
  rw [SE3.mul_actInv hM hP, SE3.actInv_act hM, SE3.mul_actF hM]

end

section
variable {K : Type*} [Field K] {s : Sys K}

/-- what `rnea` leaves, after anything -/
structure RneaState (s : Sys K) (q v a : ℕ → K) (fext : ℕ → Force K) (d d' : Data K) : Prop where
  li : ∀ i, 1 ≤ i → i < s.n → d'.liMi i = s.X q i
  oMi : d'.oMi = d.oMi
  acc : d'.a = d.a
  f : ∀ i, 1 ≤ i → i < s.n → (s.oM q i).actF (d'.f i) = s.oFm q v a fext i
  vel : ∀ i, 1 ≤ i → i < s.n → d'.v i = s.V q v i

theorem rneaFwd_oMi (q v a : ℕ → K) (i : ℕ) (d : Data K) : (rneaFwd s q v a i d).oMi = d.oMi := by
  unfold rneaFwd; dsimp only; split <;> rfl
theorem rneaFwd_a (q v a : ℕ → K) (i : ℕ) (d : Data K) : (rneaFwd s q v a i d).a = d.a := by
  unfold rneaFwd; dsimp only; split <;> rfl

theorem rneaBwd_keeps (hp : ParOk s.par s.n) (d : Data K) :
    (bwd (rneaBwd s) s.n d).liMi = d.liMi ∧ (bwd (rneaBwd s) s.n d).v = d.v ∧ (bwd (rneaBwd s) s.n d).oMi = d.oMi ∧
      (bwd (rneaBwd s) s.n d).a = d.a := by
  apply bwd_ind (P := fun _ (e : Data K) => e.liMi = d.liMi ∧ e.v = d.v ∧ e.oMi = d.oMi ∧ e.a = d.a) hp.1
  · exact ⟨rfl, rfl, rfl, rfl⟩
  · intro i e _ _ h
    unfold rneaBwd pushF; dsimp only; split <;> exact h

theorem rneaFext_state (hp : ParOk s.par s.n) {q : ℕ → K} (hq : s.At q) (v a : ℕ → K) (fext : ℕ → Force K) (d : Data K) :
    RneaState s q v a fext d (rneaFext s d q v a fext) := by
  have hfwd : ∀ e : Data K, e.a_gf 0 = -s.grav → e.tau = (fun _ => 0) → e.oMi = d.oMi → e.a = d.a →
      let r := fwd (fun i d =>
        let d := rneaFwd s q v a i d
        { d with f := upd d.f i (d.f i - fext i) }) s.n e
      NE s q v a (fun i => s.F (-s.grav) q v a i - fext i) s.n r ∧ r.tau = (fun _ => 0) ∧ r.oMi = d.oMi ∧ r.a = d.a := by
    intro e h0 ht ho ha
    apply fwd_ind (P := fun k (e : Data K) => NE s q v a (fun i => s.F (-s.grav) q v a i - fext i) k e
      ∧ e.tau = (fun _ => 0) ∧ e.oMi = d.oMi ∧ e.a = d.a) hp.1
    · exact ⟨NE.zero q v a _ h0, ht, ho, ha⟩
    · rintro i e h1 hi ⟨ih, iht, iho, iha⟩
      refine ⟨ih.step hp hq h1 hi (fext i) ?_ rfl, ?_, ?_, ?_⟩
      · rw [rneaFwd_f_val hp hq h1 hi ih]
      · have := (rneaFwd_proj (v := v) (a := a) e (by have := hp.2 i h1 hi; omega) (hq.jt i h1 hi)).2.2.2.2.2
        show (rneaFwd s q v a i e).tau = _
        rw [this, iht]
      · show (rneaFwd s q v a i e).oMi = _
        rw [rneaFwd_oMi, iho]
      · show (rneaFwd s q v a i e).a = _
        rw [rneaFwd_a, iha]
  obtain ⟨hNE, ht, ho, ha⟩ := hfwd { d with tau := fun _ => 0, v := upd d.v 0 0, a_gf := upd d.a_gf 0 (-s.grav) }
    (upd_self d.a_gf 0 _) rfl rfl rfl
  have hFT := rneaBwd_ok hp hNE.li hNE.f ht
  obtain ⟨k1, k2, k3, k4⟩ := rneaBwd_keeps hp (fwd (fun i d =>
        let d := rneaFwd s q v a i d
        { d with f := upd d.f i (d.f i - fext i) }) s.n
        { d with tau := fun _ => 0, v := upd d.v 0 0, a_gf := upd d.a_gf 0 (-s.grav) })
  unfold rneaFext
  refine ⟨fun i h1 hi => (congrFun k1 i).trans (hNE.li i h1 hi).1, k3.trans ho, k4.trans ha, fun i h1 hi => ?_,
    fun i h1 hi => (congrFun k2 i).trans (hNE.v i h1 hi)⟩
  · have hacc := hFT.acc.done
    have h2 : IsAcc s.par s.n (fun _ x => x) (s.oF (-s.grav) q v a fext) (fun i => (s.oM q i).actF
        ((bwd (rneaBwd s) s.n (fwd (fun i d =>
        let d := rneaFwd s q v a i d
        { d with f := upd d.f i (d.f i - fext i) }) s.n
        { d with tau := fun _ => 0, v := upd d.v 0 0, a_gf := upd d.a_gf 0 (-s.grav) })).f i)) := by
      intro i h1 hi
      dsimp only
      rw [hacc i h1 hi, SE3.actF_add, SE3.actF_sum']
      congr 1
      refine sum_congr rfl fun c hc => ?_
      obtain ⟨⟨c1, cn⟩, e⟩ := mem_kids.1 hc
      rw [s.oM_step c1 (hp.2 c c1 cn), e, SE3.mul_actF (s.oM_valid hp hq i hi)]
    exact h2.eq_sum_subtree hp i h1 hi

/-- without external forces, `rnea` is the same -/
theorem rneaFext_zero_eq (d : Data K) (q v a : ℕ → K) : rneaFext s d q v a (fun _ => 0) = rnea s d q v a := by
  unfold rneaFext rnea
  have : (fun (i : ℕ) (d : Data K) => let d := rneaFwd s q v a i d
      { d with f := upd d.f i (d.f i - (fun _ => (0 : Force K)) i) }) = rneaFwd s q v a := by
    funext i d
    dsimp only
    rw [sub_zero, upd, Function.update_eq_self]
  rw [this]

theorem oF_wrench (hp : ParOk s.par s.n) {q : ℕ → K} (hq : s.At q) (a0 : Motion K) (v a : ℕ → K) (fext : ℕ → Force K)
    {b : ℕ} (hb : b < s.n) : s.oF a0 q v a fext b =
      wrench (s.oM q b) (s.Y b) (s.oV q v b) (s.wA a0 q v a b) - (s.oM q b).actF (fext b) := by
  have hv := s.oM_valid hp hq b hb
  unfold Sys.oF Sys.F wrench momentum Sys.oV Sys.wA
  rw [SE3.actInv_act hv, SE3.actInv_act hv, SE3.actF_sub, SE3.actF_add, Motion.act_crossF hv]
end

variable {K : Type*} [Field K] [LinearOrder K] [IsStrictOrderedRing K] [HasEps K]

theorem supported_run (frames : ℕ → Frame K) (nframes f : ℕ) (ho : FramesOk frames nframes) (hf : f < nframes)
    (hm : ∀ i < nframes, Inertia.MassOk (frames i).inertia.mass) :
    ∀ n, f + 1 + n ≤ nframes →
      let st := (List.range' (f + 1) n).foldl (supportedStep frames (frames f).parentJoint)
        ([f], (frames f).inertia.act (frames f).placement)
      (∀ i, i ∈ st.1 ↔ i < f + 1 + n ∧ After frames f i) ∧
      st.2.matrix = ∑ i ∈ framesAfter frames (f + 1 + n) f, ((frames i).inertia.act (frames i).placement).matrix ∧
      Inertia.MassOk st.2.mass := by
  classical
  intro n
  induction n with
  | zero =>
    intro hn
    have e : framesAfter frames (f + 1 + 0) f = {f} := by
      ext i
      simp only [framesAfter, mem_filter, mem_range, mem_singleton]
      constructor
      · rintro ⟨h1, h2⟩
        have := h2.ge ho (by omega)
        omega
      · rintro rfl; exact ⟨by omega, .self⟩
    refine ⟨fun i => ?_, ?_, ?_⟩
    · simp only [List.range'_zero, List.foldl_nil, List.mem_singleton]
      constructor
      · rintro rfl; exact ⟨by omega, .self⟩
      · rintro ⟨h1, h2⟩
        have := h2.ge ho (by omega)
        omega
    · rw [e]; simp
    · exact hm f hf
  | succ n ih =>
    intro hn
    have ih := ih (by omega)
    rw [List.range'_1_concat, List.foldl_append]
    simp only [List.foldl_cons, List.foldl_nil] at ih ⊢
    generalize (List.range' (f + 1) n).foldl (supportedStep frames (frames f).parentJoint)
        ([f], (frames f).inertia.act (frames f).placement) = st at ih
    obtain ⟨h1, h2, h3⟩ := ih
    have hlt : (frames (f + 1 + n)).parentFrame < f + 1 + n := ho.2 _ (by omega) (by omega)
    have hA : After frames f (f + 1 + n) ↔
        (frames (f + 1 + n)).parentJoint = (frames f).parentJoint ∧ (frames (f + 1 + n)).parentFrame ∈ st.1 := by
      rw [h1]
      constructor
      · intro h
        rcases h.cases with h | ⟨a, b⟩
        · omega
        · exact ⟨b, hlt, a⟩
      · rintro ⟨a, -, b⟩; exact .child b a
    have hset : framesAfter frames (f + 1 + (n + 1)) f = if After frames f (f + 1 + n) then
        insert (f + 1 + n) (framesAfter frames (f + 1 + n) f) else framesAfter frames (f + 1 + n) f := by
      ext i
      split
      · rename_i h
        simp only [framesAfter, mem_insert, mem_filter, mem_range]
        constructor
        · rintro ⟨a, b⟩
          by_cases e : i = f + 1 + n
          · exact Or.inl e
          · exact Or.inr ⟨by omega, b⟩
        · rintro (rfl | ⟨a, b⟩)
          · exact ⟨by omega, h⟩
          · exact ⟨by omega, b⟩
      · rename_i h
        simp only [framesAfter, mem_filter, mem_range]
        constructor
        · rintro ⟨a, b⟩
          have : i ≠ f + 1 + n := by rintro rfl; exact h b
          exact ⟨by omega, b⟩
        · rintro ⟨a, b⟩; exact ⟨by omega, b⟩
    have hstep : supportedStep frames (frames f).parentJoint st (f + 1 + n) =
        if After frames f (f + 1 + n) then (st.1 ++ [f + 1 + n], Inertia.addAssign st.2
          ((frames (f + 1 + n)).inertia.act (frames (f + 1 + n)).placement)) else st := by
      unfold supportedStep
      by_cases a : (frames (f + 1 + n)).parentJoint = (frames f).parentJoint
      · by_cases b : (frames (f + 1 + n)).parentFrame ∈ st.1
        · rw [if_neg (not_not.2 a), if_neg (not_not.2 b), if_pos (hA.2 ⟨a, b⟩)]
        · rw [if_neg (not_not.2 a), if_pos b, if_neg fun h => b (hA.1 h).2]
      · rw [if_pos a, if_neg fun h => a (hA.1 h).1]
    rw [hstep, hset]
    by_cases h : After frames f (f + 1 + n)
    · simp only [if_pos h]
      have := Inertia.addAssign_matrix (a := st.2)
        (b := (frames (f + 1 + n)).inertia.act (frames (f + 1 + n)).placement) h3 (hm _ (by omega))
      refine ⟨fun i => ?_, ?_, this.2⟩
      · rw [List.mem_append, h1, List.mem_singleton]
        constructor
        · rintro (⟨a, b⟩ | rfl)
          · exact ⟨by omega, b⟩
          · exact ⟨by omega, h⟩
        · rintro ⟨a, b⟩
          by_cases e : i = f + 1 + n
          · exact Or.inr e
          · exact Or.inl ⟨by omega, b⟩
      · rw [this.1, h2, sum_insert, add_comm]
        simp [framesAfter]
    · simp only [if_neg h]
      refine ⟨fun i => ?_, h2, h3⟩
      rw [h1]
      constructor
      · rintro ⟨a, b⟩; exact ⟨by omega, b⟩
      · rintro ⟨a, b⟩
        have : i ≠ f + 1 + n := by rintro rfl; exact h b
        exact ⟨by omega, b⟩

theorem supported_ok (frames : ℕ → Frame K) (nframes f : ℕ) (ho : FramesOk frames nframes) (hf : f < nframes)
    (hm : ∀ i < nframes, Inertia.MassOk (frames i).inertia.mass) (hv : ∀ i < nframes, (frames i).placement.Valid) :
    (∀ w, (supportedInBody frames nframes f).2.mul w =
      ∑ i ∈ framesAfter frames nframes f, momentum (frames i).placement (frames i).inertia w) ∧
      Inertia.MassOk (supportedInBody frames nframes f).2.mass := by
  obtain ⟨-, h2, h3⟩ := supported_run frames nframes f ho hf hm (nframes - (f + 1)) (by omega)
  refine ⟨fun w => ?_, h3⟩
  rw [show f + 1 + (nframes - (f + 1)) = nframes by omega] at h2
  rw [← Inertia.matrix_mulMF]
  unfold supportedInBody
  rw [h2, M6.sum_mulMF]
  refine sum_congr rfl fun i hi => ?_
  have hi : i < nframes := by classical exact mem_range.1 (mem_filter.1 hi).1
  rw [Inertia.matrix_mulMF, Inertia.act_mul (hv i hi)]; rfl

variable {s : Sys K}

omit [Field K] [LinearOrder K] [IsStrictOrderedRing K] [HasEps K] in
theorem IsSubtree.cons (hp : ParOk s.par s.n) {j : ℕ} (h1 : 1 ≤ j) (hj : j < s.n) {l : List ℕ} (hl : IsSubtree s j l) :
    ∃ t, l = j :: t ∧ t.Nodup ∧ ∀ i, i ∈ t ↔ i ∈ subtree s.par s.n j \ {j} := by
  have hmem : j ∈ l := (hl.mem j).2 ⟨⟨h1, hj⟩, anc_refl hp hj⟩
  have hle : ∀ i ∈ l, j ≤ i := fun i hi => anc_le hp i ((hl.mem i).1 hi).1.2 ((hl.mem i).1 hi).2
  have hs := hl.sorted
  cases l with
  | nil => simp at hmem
  | cons a t =>
    have hja : j ≤ a := hle a (by simp)
    obtain ⟨s1, s2⟩ := List.pairwise_cons.1 hs
    have : a = j := by
      rcases List.mem_cons.1 hmem with h | h
      · exact h.symm
      · have := s1 j h; omega
    subst this
    refine ⟨t, rfl, s2.imp fun h => Nat.ne_of_lt h, fun i => ?_⟩
    have := hl.mem i
    rw [mem_sdiff, mem_subtree, mem_singleton, ← this, List.mem_cons]
    constructor
    · intro h; exact ⟨Or.inr h, by have := s1 i h; omega⟩
    · rintro ⟨h | h, hn⟩
      · exact absurd h hn
      · exact h

theorem fold_inertia (Y : ℕ → Inertia K) : ∀ (t : List ℕ) (I : Inertia K), Inertia.MassOk I.mass →
    (∀ j ∈ t, Inertia.MassOk (Y j).mass) →
    (t.foldl (fun I j => Inertia.addAssign I (Y j)) I).matrix = I.matrix + (t.map fun j => (Y j).matrix).sum
  | [], I, _, _ => by simp
  | j :: t, I, hI, ht => by
    have := Inertia.addAssign_matrix hI (ht j (by simp))
    rw [List.foldl_cons, fold_inertia Y t _ this.2 fun j hj => ht j (by simp [hj]), this.1, List.map_cons, List.sum_cons,
      add_assoc]

theorem sum_tail {α : Type*} [AddCommMonoid α] {t : List ℕ} (hn : t.Nodup) {S : Finset ℕ} (h : ∀ i, i ∈ t ↔ i ∈ S)
    (g : ℕ → α) : (t.map g).sum = ∑ i ∈ S, g i := by
  have : S = t.toFinset := by ext i; rw [List.mem_toFinset, h]
  rw [this, List.sum_toFinset g hn]

omit [LinearOrder K] [IsStrictOrderedRing K] [HasEps K] in
theorem fold_force (par : ℕ → ℕ) (j : ℕ) (g : ℕ → Force K) : ∀ (t : List ℕ) (F : Force K),
    t.foldl (fun F i => if par i ≠ j then F else F + g i) F = F + (t.map fun i => if par i = j then g i else 0).sum
  | [], F => by simp
  | i :: t, F => by
    rw [List.foldl_cons, fold_force par j g t, List.map_cons, List.sum_cons]
    by_cases e : par i = j
    · rw [if_neg (not_not.2 e), if_pos e, add_assoc]
    · rw [if_pos e, if_neg e, zero_add]

/-! ## The property -/

/-- **C72 (inertia of the body).** Without the subtree, the inertia returned, in the frame, is the one of all the frames
at or after it on its joint: whatever the velocity, its momentum is the sum of theirs (all in the frame of the joint). -/
theorem C72_inertia_body (s : Sys K) (subtrees : ℕ → List ℕ) (frames : ℕ → Frame K) (nframes : ℕ) (d : Data K) {f : ℕ}
    (ho : FramesOk frames nframes) (hf : f < nframes) (hm : ∀ i < nframes, Inertia.MassOk (frames i).inertia.mass)
    (hv : ∀ i < nframes, (frames i).placement.Valid) (w : Motion K) :
    momentum (frames f).placement (computeSupportedInertiaByFrame s subtrees frames nframes d f false) w =
      ∑ i ∈ framesAfter frames nframes f, momentum (frames i).placement (frames i).inertia w := by
  rw [← (supported_ok frames nframes f ho hf hm hv).1 w]
  unfold computeSupportedInertiaByFrame momentum
  simp only [Bool.not_false, if_true]
  rw [Inertia.actInv_mul (hv f hf), SE3.act_actInv (hv f hf), SE3.actF_actInvF (hv f hf)]

/-- **C72 (inertia of the subtree).** With the subtree, after the forward kinematics and for a frame which is not
attached to the universe, the inertia returned is the one of all the frames at or after it on its joint, and of all the
joints that its joint supports: whatever the velocity, its momentum in the world is the sum of theirs. -/
theorem C72_inertia_partial (hp : ParOk s.par s.n) {q : ℕ → K} (hq : s.At q) (d : Data K) (hY : s.MassesOk)
    {subtrees : ℕ → List ℕ} {frames : ℕ → Frame K} {nframes f : ℕ}
    (hl : IsSubtree s (frames f).parentJoint (subtrees (frames f).parentJoint))
    (h1 : 1 ≤ (frames f).parentJoint) (hj : (frames f).parentJoint < s.n)
    (ho : FramesOk frames nframes) (hf : f < nframes) (hm : ∀ i < nframes, Inertia.MassOk (frames i).inertia.mass)
    (hv : ∀ i < nframes, (frames i).placement.Valid) (w : Motion K) :
    let j := (frames f).parentJoint
    momentum (s.oM q j * (frames f).placement)
        (computeSupportedInertiaByFrame s subtrees frames nframes (forwardKinematics s d q) f true) w =
      ∑ i ∈ framesAfter frames nframes f, momentum (s.oM q j * (frames i).placement) (frames i).inertia w +
      ∑ i ∈ subtree s.par s.n j \ {j}, momentum (s.oM q i) (s.Y i) w := by
  intro j
  obtain ⟨t, et, hn, ht⟩ := hl.cons hp h1 hj
  obtain ⟨hs, hms⟩ := supported_ok frames nframes f ho hf hm hv
  have hM := s.oM_valid hp hq j hj
  have hP := hv f hf
  have eo : ∀ i, 1 ≤ i → i < s.n → (forwardKinematics s d q).oMi i = s.oM q i := fun i a b => (fk0_ok hp d q i a b).2.1
  have htr : ∀ i ∈ t, 1 ≤ i ∧ i < s.n := fun i hi => (mem_subtree.1 (mem_sdiff.1 ((ht i).1 hi)).1).1
  unfold computeSupportedInertiaByFrame
  simp only [Bool.not_true, Bool.false_eq_true, if_false]
  rw [et, List.tail_cons, eo _ h1 hj]
  unfold momentum
  rw [Inertia.actInv_mul (hM.mul hP), SE3.act_actInv (hM.mul hP), SE3.actF_actInvF (hM.mul hP),
    ← Inertia.matrix_mulMF, fold_inertia (fun i => (s.Y i).act ((forwardKinematics s d q).oMi i)) t
      ((supportedInBody frames nframes f).2.act (s.oM q j)) hms
      (fun i hi => hY i (htr i hi).1 (htr i hi).2), M6.add_mulMF, Inertia.matrix_mulMF, Inertia.act_mul hM, hs,
    sum_tail hn ht, M6.sum_mulMF, SE3.actF_sum']
  congr 1
  · refine sum_congr rfl fun i hi => ?_
    have hi : i < nframes := by classical exact mem_range.1 (mem_filter.1 hi).1
    rw [momentum_mul hM (hv i hi), SE3.act_actInv hM]; rfl
  · refine sum_congr rfl fun i hi => ?_
    obtain ⟨a, b⟩ := htr i ((ht i).2 hi)
    rw [Inertia.matrix_mulMF, eo i a b, Inertia.act_mul (s.oM_valid hp hq i b)]

/-- **C72 (force).** After the forward kinematics of `q, v, a` and then the inverse dynamics of `q, v, a`, with or without
external forces, and for a frame which is not attached to the universe, the force returned is the one that gives their
motion, gravity included, to all the frames at or after it on its joint and to all the bodies that its joint supports,
less the external forces on these bodies. -/
theorem C72_force_partial (hp : ParOk s.par s.n) {q : ℕ → K} (hq : s.At q) (v a : ℕ → K) (fext : ℕ → Force K) (d : Data K)
    {subtrees : ℕ → List ℕ} {frames : ℕ → Frame K} {nframes f : ℕ}
    (hl : IsSubtree s (frames f).parentJoint (subtrees (frames f).parentJoint))
    (h1 : 1 ≤ (frames f).parentJoint) (hj : (frames f).parentJoint < s.n)
    (ho : FramesOk frames nframes) (hf : f < nframes) (hm : ∀ i < nframes, Inertia.MassOk (frames i).inertia.mass)
    (hv : ∀ i < nframes, (frames i).placement.Valid) :
    let j := (frames f).parentJoint
    (s.oM q j * (frames f).placement).actF (computeSupportedForceByFrame s subtrees frames nframes
        (rneaFext s (forwardKinematicsA s d q v a) q v a fext) f) =
      ∑ i ∈ framesAfter frames nframes f, wrench (s.oM q j * (frames i).placement) (frames i).inertia (s.oV q v j)
        (s.wA (-s.grav) q v a j) +
      ∑ i ∈ subtree s.par s.n j \ {j}, (wrench (s.oM q i) (s.Y i) (s.oV q v i) (s.wA (-s.grav) q v a i) -
        (s.oM q i).actF (fext i)) := by
  intro j
  obtain ⟨t, et, hn, ht⟩ := hl.cons hp h1 hj
  obtain ⟨hs, hms⟩ := supported_ok frames nframes f ho hf hm hv
  have hM : (s.oM q j).Valid := s.oM_valid hp hq j hj
  have hP : (frames f).placement.Valid := hv f hf
  have hr := rneaFext_state hp hq v a fext (forwardKinematicsA s d q v a)
  obtain ⟨f1, -, f3⟩ := fk2_ok hp d hq v a
  generalize hD : rneaFext s (forwardKinematicsA s d q v a) q v a fext = D at hr
  have eo : D.oMi j = s.oM q j := by rw [hr.oMi]; exact (f1 j h1 hj).2.1
  have ea : D.a j = s.A 0 q v a j := by rw [hr.acc]; exact f3 j hj
  have ev : D.v j = s.V q v j := hr.vel j h1 hj
  have htr : ∀ i ∈ t, 1 ≤ i ∧ i < s.n := fun i hi => (mem_subtree.1 (mem_sdiff.1 ((ht i).1 hi)).1).1
  have hfI : ∀ x, (frames f).placement.actF
      ((computeSupportedInertiaByFrame s subtrees frames nframes D f false).mul x) =
      ∑ i ∈ framesAfter frames nframes f, momentum (frames i).placement (frames i).inertia ((frames f).placement.act x) := by
    intro x
    have := C72_inertia_body s subtrees frames nframes D ho hf hm hv ((frames f).placement.act x)
    unfold momentum at this
    rw [SE3.actInv_act hP] at this
    exact this
  have hA : s.A 0 q v a j - (s.oM q j).actInv s.grav = s.A (-s.grav) q v a j := by
    rw [Sys.A_base hp (-s.grav) q v a j hj, Sys.base_eq hp hq (-s.grav) j hj, SE3.actInv_neg, sub_eq_add_neg]
  unfold computeSupportedForceByFrame
  dsimp only
  rw [show (frames f).parentJoint = j from rfl] at et ⊢
  rw [et, List.tail_cons, SE3.mul_actF hM, SE3.actF_actInvF hP, fold_force s.par j (fun i => (D.liMi i).actF (D.f i)),
    SE3.actF_add, SE3.actF_add, SE3.actF_add, Inertia.vxiv_eq, Motion.act_crossF hP, hfI, hfI, eo, SE3.act_sub,
    SE3.mul_actInv hM hP, SE3.act_actInv hP]
  unfold getFrameVelocity getFrameAcceleration inFrameAt
  dsimp only
  rw [SE3.act_actInv hP, SE3.act_actInv hP, ea, ev, hA, Motion.act_crossF hM, SE3.actF_sum', SE3.actF_sum']
  congr 1
  · unfold wrench
    rw [sum_add_distrib, add_comm, Motion.crossF_sum']
    congr 1
    · refine sum_congr rfl fun i hi => ?_
      have hi : i < nframes := by classical exact mem_range.1 (mem_filter.1 hi).1
      rw [momentum_mul hM (hv i hi)]; rfl
    · refine sum_congr rfl fun i hi => ?_
      have hi : i < nframes := by classical exact mem_range.1 (mem_filter.1 hi).1
      rw [momentum_mul hM (hv i hi)]; rfl
  · rw [sum_tail hn ht, SE3.actF_sum']
    have e1 : ∑ i ∈ subtree s.par s.n j \ {j}, (wrench (s.oM q i) (s.Y i) (s.oV q v i) (s.wA (-s.grav) q v a i) -
        (s.oM q i).actF (fext i)) = ∑ i ∈ subtree s.par s.n j \ {j}, s.oF (-s.grav) q v a fext i :=
      sum_congr rfl fun i hi => (oF_wrench hp hq _ v a fext (mem_subtree.1 (mem_sdiff.1 hi).1).1.2).symm
    rw [e1]
    have hjm : {j} ⊆ subtree s.par s.n j := by
      intro i hi
      rw [mem_singleton] at hi
      subst hi
      exact mem_subtree.2 ⟨⟨h1, hj⟩, anc_refl hp hj⟩
    have e2 := sum_sdiff hjm (f := s.oF (-s.grav) q v a fext)
    rw [sum_singleton, sum_subtree hp _ h1 hj, add_comm] at e2
    rw [add_left_cancel e2]
    have e3 : kids s.par s.n j = (subtree s.par s.n j \ {j}).filter fun i => s.par i = j := by
      ext c
      rw [mem_kids, mem_filter, mem_sdiff, mem_subtree, mem_singleton]
      constructor
      · rintro ⟨⟨c1, cn⟩, e⟩
        have hlt := hp.2 c c1 cn
        refine ⟨⟨⟨⟨c1, cn⟩, ?_⟩, by omega⟩, e⟩
        rw [← e]
        exact (anc_step c1 hlt).2 (Or.inr (anc_refl hp (by omega)))
      · rintro ⟨⟨⟨h, -⟩, -⟩, e⟩; exact ⟨h, e⟩
    rw [e3, sum_filter]
    refine sum_congr rfl fun c hc => ?_
    obtain ⟨c1, cn⟩ := htr c ((ht c).2 hc)
    by_cases e : s.par c = j
    · rw [if_pos e, if_pos e, hr.li c c1 cn, ← SE3.mul_actF hM]
      have : s.oM q j * s.X q c = s.oM q c := by rw [s.oM_step c1 (hp.2 c c1 cn), e]
      rw [this, hr.f c c1 cn]; rfl
    · rw [if_neg e, if_neg e, SE3.actF_zero]

/-! ## Examples and findings -/

namespace Ex
/-- frames on the joint 1: its own frame, a body, another body after this one, and one which is not after it; then a
frame on joint 3 -/
def frS (i : ℕ) : Frame ℚ :=
  if i = 0 then ⟨"universe", 0, 0, 1, FIXED_JOINT, 0⟩
  else if i = 1 then ⟨"joint", 1, 0, 1, JOINT, 0⟩
  else if i = 2 then ⟨"body", 1, 1, mA, BODY, iA⟩
  else if i = 3 then ⟨"tool", 1, 2, mB, OP_FRAME, iB⟩
  else if i = 4 then ⟨"other", 1, 1, mB, OP_FRAME, iA⟩
  else ⟨"far", 3, 2, mA, BODY, iB⟩

/-- the `model.subtrees` of `sysA` -/
def subA (i : ℕ) : List ℕ := if i = 0 then [1, 2, 3, 4] else if i = 1 then [1, 2, 3, 4] else if i = 3 then [3, 4] else [i]

theorem frS_valid : ∀ i < 6, (frS i).placement.Valid := by
  intro i hi
  interval_cases i
  · exact SE3.valid_one
  · exact SE3.valid_one
  · exact mA_valid
  · exact mB_valid
  · exact mB_valid
  · exact mA_valid

theorem subA_one : IsSubtree sysA 1 (subA 1) := by
  refine ⟨by decide, fun j => ⟨fun hj => ?_, ?_⟩⟩
  · have hj' : 1 ≤ j ∧ j < 5 := by
      simp only [subA, if_neg (show ¬ (1 = 0) by decide), if_true, List.mem_cons, List.not_mem_nil, or_false] at hj
      omega
    refine ⟨hj', ?_⟩
    obtain ⟨h1, h2⟩ := hj'
    have r1 : anc sysA.par 1 1 := anc_refl sysA_par (by decide)
    have r3 : anc sysA.par 1 3 := (anc_step (by decide) (by decide)).2 (Or.inr r1)
    interval_cases j
    · exact r1
    · exact (anc_step (by decide) (by decide)).2 (Or.inr r1)
    · exact r3
    · exact (anc_step (by decide) (by decide)).2 (Or.inr r3)
  · rintro ⟨⟨h1, hj⟩, -⟩
    change j < 5 at hj
    interval_cases j <;> decide
end Ex

/-- the hypotheses of the theorems above are met: a body with a tool after it, on a joint which supports three others;
the tool is after the body, the other frame of the joint and the frame of the other joint are not -/
example : ParOk Ex.sysA.par Ex.sysA.n ∧ Ex.sysA.At Ex.qA ∧ Ex.sysA.MassesOk ∧
    IsSubtree Ex.sysA (Ex.frS 2).parentJoint (Ex.subA (Ex.frS 2).parentJoint) ∧
    1 ≤ (Ex.frS 2).parentJoint ∧ (Ex.frS 2).parentJoint < Ex.sysA.n ∧ FramesOk Ex.frS 6 ∧
    (∀ i < 6, Inertia.MassOk (Ex.frS i).inertia.mass) ∧ (∀ i < 6, (Ex.frS i).placement.Valid) ∧
    After Ex.frS 2 3 ∧ ¬ After Ex.frS 2 4 ∧ ¬ After Ex.frS 2 5 := by
  refine ⟨Ex.sysA_par, Ex.sysA_at, Ex.sysA_masses, Ex.subA_one, by decide, by decide, ⟨by decide, by decide⟩, ?_,
    Ex.frS_valid, ?_, ?_, ?_⟩
  · intro i hi; interval_cases i <;> (unfold Inertia.MassOk; decide +kernel)
  · exact After.child (i := 3) After.self rfl
  · intro h
    rcases h.cases with e | ⟨h, -⟩
    · exact absurd e (by decide)
    · rcases h.cases with e | ⟨h, -⟩
      · exact absurd e (by decide)
      · rcases h.cases with e | ⟨-, e⟩ <;> exact absurd e (by decide)
  · intro h
    rcases h.cases with e | ⟨-, e⟩ <;> exact absurd e (by decide)

set_option maxRecDepth 100000 in
/-- on a frame of the universe, `computeSupportedInertiaByFrame` with the subtree and `computeSupportedForceByFrame` leave
out the joint 1: `model.subtrees[0]` does not contain 0, and the first element is skipped -/
theorem C72_universe_counterexample :
    (computeSupportedInertiaByFrame Ex.sysA Ex.subA Ex.frS 1 (forwardKinematics Ex.sysA Data.zero Ex.qA) 0 true).mass
      = (Ex.sysA.Y 2).mass + (Ex.sysA.Y 3).mass + (Ex.sysA.Y 4).mass ∧ 0 < (Ex.sysA.Y 1).mass ∧
    Ex.sysA.par 1 = (Ex.frS 0).parentJoint ∧
    computeSupportedForceByFrame Ex.sysA Ex.subA Ex.frS 1
        (rnea Ex.sysA (forwardKinematicsA Ex.sysA Data.zero Ex.qA Ex.vA Ex.vA) Ex.qA Ex.vA Ex.vA) 0 = 0 ∧
    (rnea Ex.sysA (forwardKinematicsA Ex.sysA Data.zero Ex.qA Ex.vA Ex.vA) Ex.qA Ex.vA Ex.vA).f 1 ≠ 0 := by
  decide +kernel

set_option maxRecDepth 100000 in
/-- `computeSupportedForceByFrame` asks for `rnea` beforehand, but reads `data.oMi` and `data.a`, which `rnea` does not
write: after `rnea` alone, the force depends on what the `data` contained before -/
theorem C72_rnea_counterexample :
    computeSupportedForceByFrame Ex.sysA Ex.subA Ex.frS 6 (rnea Ex.sysA Data.zero Ex.qA Ex.vA Ex.vA) 2 ≠
    computeSupportedForceByFrame Ex.sysA Ex.subA Ex.frS 6
      (rnea Ex.sysA (forwardKinematicsA Ex.sysA Data.zero Ex.qA Ex.vA Ex.vA) Ex.qA Ex.vA Ex.vA) 2 := by
  decide +kernel

set_option maxRecDepth 100000 in
/-- the model is not cut at the frame: the inertia of a tool at the end of the joint 1 contains the joints attached to the
joint before the tool -/
theorem C72_cut_counterexample :
    (computeSupportedInertiaByFrame Ex.sysA Ex.subA Ex.frS 6 (forwardKinematics Ex.sysA Data.zero Ex.qA) 3 true).mass
      = Ex.iB.mass + (Ex.sysA.Y 2).mass + (Ex.sysA.Y 3).mass + (Ex.sysA.Y 4).mass ∧
    (supportedInBody Ex.frS 6 3).1 = [3] ∧ Ex.sysA.par 2 = 1 ∧ (Ex.frS 3).parentJoint = 1 := by
  decide +kernel

open Model in
set_option maxRecDepth 100000 in
/-- for the frame of a joint, without the subtree, the inertia is not `model.inertias` of this joint: what
`appendBodyToJoint` adds is in no frame -/
theorem C72_append_counterexample : ∃ m : Model ℚ Unit, Reach () m ∧
    (m.frames.map (fun f => (f.name, f.parentJoint))) = [("universe", 0), ("a", 1)] ∧
    (computeSupportedInertiaByFrame Ex.sysA Ex.subA (fun i => m.frames.getD i (Ex.frS 0)) 2 Data.zero 1 false).mass = 0 ∧
    (m.inertias.getD 1 0).mass = Ex.iA.mass ∧ Ex.iA.mass ≠ 0 := by
  let l : List (Op ℚ Unit) := [.addJoint (Ex.ja 0 1 "a"), .addJointFrame 1 none, .appendBody 1 Ex.iA Ex.mA]
  have hs : (Ex.run (empty ()) l).isSome = true := by decide +kernel
  obtain ⟨m, hm⟩ := Option.isSome_iff_exists.1 hs
  have hmm : m = (Ex.run (empty ()) l).getD (empty ()) := by rw [hm]; rfl
  refine ⟨m, Ex.reach_run l _ _ .init (by decide +kernel) hm, ?_⟩
  rw [hmm]
  decide +kernel

end Pin
