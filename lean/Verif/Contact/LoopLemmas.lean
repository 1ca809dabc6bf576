import Verif.Contact.AdmmLemmas

/-! # The loops of the contact solvers -/

namespace Pin
universe u
variable {K : Type u} [Field K] [LinearOrder K] [IsStrictOrderedRing K] [HasSqrt K]

omit [IsStrictOrderedRing K] in
theorem cone_mu {cones : List (Cone K)} (hmu : ∀ c ∈ cones, 0 ≤ c.mu) {c : ℕ} (hc : c < cones.length) :
    0 ≤ (cones.getD c ⟨0⟩).mu := by
  rw [show cones.getD c ⟨0⟩ = cones[c] by simp [hc]]; exact hmu _ (List.getElem_mem hc)

/-! ## Gauss-Seidel -/

theorem pgsSweep_seg (n : ℕ) (G : ℕ → ℕ → K) (g : ℕ → K) (w : K) (cones : List (Cone K)) (x : ℕ → K) {c : ℕ}
    (hc : c < cones.length) : ∃ y, seg3 (pgsSweep n G g w cones x).x c = pgsForce n G g w (cones.getD c ⟨0⟩).mu c y := by
  have hs := pgsContact_out n G g w cones
  refine ⟨((List.range c).foldl (fun s c => pgsContact n G g w (cones.getD c ⟨0⟩) c s) ⟨x, 0, 0⟩).x, ?_⟩
  have : seg3 (pgsSweep n G g w cones x).x c =
      seg3 ((List.range (c + 1)).foldl (fun s c => pgsContact n G g w (cones.getD c ⟨0⟩) c s) ⟨x, 0, 0⟩).x c := by
    unfold seg3 pgsSweep
    congr 1 <;> exact segFold_in (fun s : PgsSt K => s.x) _ (fun s c i hi => hs s c i hi) _ (by omega) (by omega)
  rw [this, List.range_succ, List.foldl_append, List.foldl_cons, List.foldl_nil, pgsContact_x, seg3_setSeg3]

theorem pgsSweep_out (n : ℕ) (G : ℕ → ℕ → K) (g : ℕ → K) (w : K) (cones : List (Cone K)) (x : ℕ → K) {i : ℕ}
    (hi : 3 * cones.length ≤ i) : (pgsSweep n G g w cones x).x i = x i :=
  segFold_out (fun s : PgsSt K => s.x) _ (fun s c i hi => pgsContact_out n G g w cones s c i hi) _ _ hi

theorem pgsSweep_fixed {n : ℕ} {G : ℕ → ℕ → K} {g : ℕ → K} {w : K} {cones : List (Cone K)} (x : ℕ → K) (hw : 0 < w)
    (hmu : ∀ c ∈ cones, 0 ≤ c.mu) (hG : ∀ i < 3 * cones.length, 0 < G i i) :
    (pgsSweep n G g w cones x).x = x ↔
      ∀ c < cones.length, CoulombLaw (cones.getD c ⟨0⟩).mu (seg3 x c) (seg3 (fun i => matVec n G x i + g i) c) := by
  have hs := pgsContact_out n G g w cones
  constructor
  · intro h c hc
    have k0 := segFold_fixed (fun s : PgsSt K => s.x) _ (fun s c i hi => hs s c i hi) ⟨x, 0, 0⟩ (m := cones.length) h (k := c) (by omega)
    have k1 := segFold_fixed (fun s : PgsSt K => s.x) _ (fun s c i hi => hs s c i hi) ⟨x, 0, 0⟩ (m := cones.length) h (k := c + 1) (by omega)
    rw [List.range_succ, List.foldl_append, List.foldl_cons, List.foldl_nil, pgsContact_x, k0] at k1
    refine (pgsForce_fixed n G g hw (cone_mu hmu hc) c x (hG _ (by omega)) (hG _ (by omega)) (hG _ (by omega))).1 ?_
    have := congrArg (fun l => seg3 l c) k1
    simpa only [seg3_setSeg3] using this
  · intro h
    have : ∀ k ≤ cones.length, ((List.range k).foldl (fun s c => pgsContact n G g w (cones.getD c ⟨0⟩) c s) ⟨x, 0, 0⟩).x = x := by
      intro k
      induction k with
      | zero => intro _; rfl
      | succ k ih =>
        intro hk
        rw [List.range_succ, List.foldl_append, List.foldl_cons, List.foldl_nil, pgsContact_x, ih (by omega)]
        exact setSeg3_seg3 _ _ ((pgsForce_fixed n G g hw (cone_mu hmu (by omega)) k x (hG _ (by omega)) (hG _ (by omega))
          (hG _ (by omega))).2 (h k (by omega)))
    exact this _ le_rfl

omit [IsStrictOrderedRing K] in
/-- the result of the loop is the result of its last iteration -/
theorem pgsLoop_last (n : ℕ) (G : ℕ → ℕ → K) (g : ℕ → K) (w absPrec relPrec : K) (cones : List (Cone K)) (left : ℕ)
    (o : PgsOut K) : pgsLoop n G g w absPrec relPrec cones left (normInf n o.x) o = o ∧ left = 0 ∨
    ∃ xp, let r := pgsLoop n G g w absPrec relPrec cones left (normInf n o.x) o
      r.x = (pgsSweep n G g w cones xp).x ∧ r.relRes = some (normInf n (fun i => r.x i - xp i)) ∧
      r.relReached = decide (normInf n (fun i => r.x i - xp i) ≤ relPrec * max (normInf n r.x) (normInf n xp)) ∧
      r.it ≤ o.it + left ∧ (r.absReached = false → r.relReached = false → r.it = o.it + left) := by
  induction left generalizing o with
  | zero => left; exact ⟨rfl, rfl⟩
  | succ left ih =>
    right
    unfold pgsLoop
    simp only
    split
    · rename_i h
      exact ⟨o.x, rfl, rfl, rfl, by simp only; omega, fun h1 h2 => by simp only at h1 h2; rw [h1, h2] at h; simp at h⟩
    · rename_i h
      have := ih ⟨(pgsSweep n G g w cones o.x).x,
        decide ((pgsSweep n G g w cones o.x).compl ≤ absPrec) && decide ((pgsSweep n G g w cones o.x).dual ≤ absPrec),
        decide (normInf n (fun i => (pgsSweep n G g w cones o.x).x i - o.x i)
          ≤ relPrec * max (normInf n (pgsSweep n G g w cones o.x).x) (normInf n o.x)),
        some (max (pgsSweep n G g w cones o.x).compl (pgsSweep n G g w cones o.x).dual),
        some (normInf n (fun i => (pgsSweep n G g w cones o.x).x i - o.x i)), o.it + 1⟩
      rcases this with ⟨e, h0⟩ | ⟨xp, h1, h2, h3, h4, h5⟩
      · rw [e]
        exact ⟨o.x, rfl, rfl, rfl, by simp only; omega, fun _ _ => by simp only; omega⟩
      · exact ⟨xp, h1, h2, h3, le_trans h4 (by simp only; omega), fun a b => by rw [h5 a b]; simp only; omega⟩

/-! ## ADMM -/

omit [IsStrictOrderedRing K] in
theorem admm_seg (n : ℕ) (solve : (ℕ → K) → (ℕ → K) → ℕ → K) (g R : ℕ → K) (cones : List (Cone K)) (muProx tau : K)
    (a : AdmmSt K) {c : ℕ} (hc : c < cones.length) :
    let a' := admmIter n solve g R cones muProx tau a
    seg3 a'.y c = (cones.getD c ⟨0⟩).project (seg3 a'.x c - (1 / (tau * a.rho)) • seg3 a.z c) ∧
    seg3 a'.z c = seg3 a.z c - (tau * a.rho) • (seg3 a'.x c - seg3 a'.y c) ∧
    seg3 a'.s c = (cones.getD c ⟨0⟩).normalCorrection (seg3 a.z c) := by
  refine ⟨?_, ?_, ?_⟩
  · unfold admmIter coneProjection
    simp only
    rw [segFold_const _ _ _ hc]
    congr 1
    ext <;> simp [seg3, div_eq_inv_mul]
  · ext <;> rfl
  · unfold admmIter complementarityShift
    simp only
    rw [segFold_const _ _ _ hc]

theorem admmRho_pos {ratio incr : K} (hi : 0 < incr) {a : AdmmSt K} (h : 0 < a.rho) : 0 < (admmRho ratio incr a).rho := by
  unfold admmRho
  split
  · exact mul_pos h hi
  · split
    · exact div_pos h hi
    · exact h

omit [IsStrictOrderedRing K] in
theorem admmRho_same (ratio incr : K) (a : AdmmSt K) : (admmRho ratio incr a).x = a.x ∧ (admmRho ratio incr a).y = a.y ∧
    (admmRho ratio incr a).z = a.z ∧ (admmRho ratio incr a).s = a.s := by
  unfold admmRho
  split
  · exact ⟨rfl, rfl, rfl, rfl⟩
  · split
    · exact ⟨rfl, rfl, rfl, rfl⟩
    · exact ⟨rfl, rfl, rfl, rfl⟩

/-- the loop ends with an iteration from a state whose `rho` is positive -/
theorem admmLoop_last (n : ℕ) (solve : (ℕ → K) → (ℕ → K) → ℕ → K) (g R : ℕ → K) (cones : List (Cone K))
    {muProx tau absPrec ratio incr : K} (hi : 0 < incr) (left : ℕ) {a : AdmmSt K} (ha : 0 < a.rho) (hl : left ≠ 0) :
    ∃ p, 0 < p.rho ∧
      let r := admmLoop n solve g R cones muProx tau absPrec ratio incr left a
      let a' := admmIter n solve g R cones muProx tau p
      r.2.x = a'.x ∧ r.2.y = a'.y ∧ r.2.z = a'.z ∧ r.2.s = a'.s ∧
      (r.1 = true → a'.compl ≤ absPrec ∧ a'.dual ≤ absPrec ∧ a'.primal ≤ absPrec ∧ r.2 = a') := by
  induction left generalizing a with
  | zero => exact absurd rfl hl
  | succ left ih =>
    unfold admmLoop
    simp only
    split
    · rename_i h
      exact ⟨a, ha, rfl, rfl, rfl, rfl, fun _ => ⟨h.1, h.2.1, h.2.2, rfl⟩⟩
    · by_cases h0 : left = 0
      · subst h0
        refine ⟨a, ha, ?_⟩
        unfold admmLoop
        obtain ⟨e1, e2, e3, e4⟩ := admmRho_same ratio incr (admmIter n solve g R cones muProx tau a)
        exact ⟨e1, e2, e3, e4, fun h => by simp at h⟩
      · exact ih (admmRho_pos hi (by exact ha)) h0


/-! ## external forces -/

omit [LinearOrder K] [IsStrictOrderedRing K] [HasSqrt K] in
theorem sum_update_dot {n j : ℕ} (hj : j < n) (V : ℕ → Motion K) (f : ℕ → Force K) (g : Force K) :
    (∑ i ∈ Finset.range n, (V i).dot (Function.update f j (f j + g) i)) = (∑ i ∈ Finset.range n, (V i).dot (f i)) + (V j).dot g := by
  have hm : j ∈ Finset.range n := Finset.mem_range.2 hj
  rw [← Finset.add_sum_erase _ _ hm, ← Finset.add_sum_erase (Finset.range n) (fun i => (V i).dot (f i)) hm]
  rw [Function.update_self, Motion.dot_add]
  have : ∑ i ∈ (Finset.range n).erase j, (V i).dot (Function.update f j (f j + g) i) = ∑ i ∈ (Finset.range n).erase j, (V i).dot (f i) := by
    refine Finset.sum_congr rfl (fun i hi => ?_)
    rw [Function.update_of_ne (Finset.ne_of_mem_erase hi)]
  rw [this]; ring

omit [LinearOrder K] [IsStrictOrderedRing K] [HasSqrt K] in
theorem contact_dot (M : SE3 K) (V : Motion K) (l : V3 K) : V.dot (M.actF ⟨l, 0⟩) = l.dot (M.actInv V).lin := by
  rw [← SE3.dot_actInv]
  simp [Motion.dot, V3.dot]

omit [LinearOrder K] [IsStrictOrderedRing K] [HasSqrt K] in
theorem contactFext_power (n : ℕ) (contacts : List (ContactPair K)) (lam : ℕ → K) (V : ℕ → Motion K)
    (hj : ∀ c ∈ contacts, c.joint1 < n ∧ c.joint2 < n) :
    (∑ i ∈ Finset.range n, (V i).dot (contactFext contacts lam i)) =
      ((List.range contacts.length).map (fun k => (seg3 lam k).dot
        (((contacts.getD k default).placement1.actInv (V (contacts.getD k default).joint1)).lin) +
        (seg3 lam k).dot (((contacts.getD k default).placement2.actInv (V (contacts.getD k default).joint2)).lin))).sum := by
  unfold contactFext
  have key : ∀ m ≤ contacts.length, (∑ i ∈ Finset.range n, (V i).dot ((List.range m).foldl (fun (f : ℕ → Force K) k =>
      let c := contacts.getD k default
      let l : Force K := ⟨seg3 lam k, 0⟩
      let f := Function.update f c.joint1 (f c.joint1 + c.placement1.actF l)
      Function.update f c.joint2 (f c.joint2 + c.placement2.actF l)) (fun _ => 0) i)) =
      ((List.range m).map (fun k => (seg3 lam k).dot
        (((contacts.getD k default).placement1.actInv (V (contacts.getD k default).joint1)).lin) +
        (seg3 lam k).dot (((contacts.getD k default).placement2.actInv (V (contacts.getD k default).joint2)).lin))).sum := by
    intro m
    induction m with
    | zero => intro _; simp [Motion.dot, V3.dot]
    | succ m ih =>
      intro hm
      have hmem : contacts.getD m default ∈ contacts := by
        rw [show contacts.getD m default = contacts[m] by simp [show m < contacts.length by omega]]; exact List.getElem_mem _
      rw [List.range_succ, List.foldl_append, List.foldl_cons, List.foldl_nil, List.map_append, List.sum_append, ← ih (by omega)]
      dsimp only
      rw [sum_update_dot (hj _ hmem).2, sum_update_dot (hj _ hmem).1, contact_dot, contact_dot]
      simp only [List.map_cons, List.map_nil, List.sum_cons, List.sum_nil]
      ring
  exact key _ le_rfl

end Pin
