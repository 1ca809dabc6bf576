import Verif.Joint.Kinematic
import Verif.Algo.SpecLemmas

/-! # Composite and mimic joints -/

namespace Pin
open Finset DualNumber TrivSqZeroExt
universe u
variable {K : Type u} [CommRing K]

theorem V3.map_fst_sub (a b : V3 K[ε]) : (a - b).map fst = a.map fst - b.map fst := by ext <;> simp
theorem V3.map_snd_sub (a b : V3 K[ε]) : (a - b).map snd = a.map snd - b.map snd := by ext <;> simp
theorem V3.map_fst_cross (a b : V3 K[ε]) : (a.cross b).map fst = (a.map fst).cross (b.map fst) := by
  ext <;> simp
theorem V3.map_snd_cross (a b : V3 K[ε]) :
    (a.cross b).map snd = (a.map snd).cross (b.map fst) + (a.map fst).cross (b.map snd) := by
  ext <;> simp <;> ring

theorem SE3.map_fst_actInv {Xε : SE3 K[ε]} {X : SE3 K} (h : Xε.map fst = X) (m : Motion K[ε]) :
    (Xε.actInv m).map fst = X.actInv (m.map fst) := by
  subst h
  ext <;> simp [SE3.actInv, Motion.map, SE3.map, M3.map, M3.tr]

/-- derivative of a motion seen from a moving frame -/
theorem SE3.Moves.snd_actInv {Xε : SE3 K[ε]} {X : SE3 K} {ν : Motion K} (h : Xε.Moves X ν) (hX : X.Valid)
    (m : Motion K[ε]) :
    (Xε.actInv m).map snd = X.actInv (m.map snd) - ν.cross (X.actInv (m.map fst)) := by
  have r0 : Xε.rot.map fst = X.rot := congrArg SE3.rot h.base
  have t0 : Xε.trans.map fst = X.trans := congrArg SE3.trans h.base
  have trf : Xε.rot.tr.map fst = X.rot.tr := by rw [← r0]; rfl
  have trs : ∀ u, (Xε.rot.tr.map snd).mulVec u = - ν.ang.cross (X.rot.tr.mulVec u) := by
    intro u
    have : Xε.rot.tr.map snd = (X.rot * M3.skew ν.ang).tr := by rw [← h.rot]; rfl
    rw [this]
    ext <;> simp [M3.skew, M3.tr] <;> ring
  have tcr : ∀ a b : V3 K, X.rot.tr.mulVec ((X.rot.mulVec a).cross b) = a.cross (X.rot.tr.mulVec b) := by
    intro a b
    rw [(M3.IsRot.tr hX).mulVec_cross, hX.tr_mulVec_mulVec]
  ext1
  · change (Xε.rot.tr.mulVec (m.lin - Xε.trans.cross m.ang)).map snd
      = X.rot.tr.mulVec (m.lin.map snd - X.trans.cross (m.ang.map snd))
        - (ν.lin.cross (X.rot.tr.mulVec (m.ang.map fst))
          + ν.ang.cross (X.rot.tr.mulVec (m.lin.map fst - X.trans.cross (m.ang.map fst))))
    rw [M3.map_snd_mulVec, trs, trf, V3.map_snd_sub, V3.map_fst_sub, V3.map_snd_cross, V3.map_fst_cross, t0,
      h.trans, ← tcr ν.lin]
    ext <;> simp [M3.tr] <;> ring
  · change (Xε.rot.tr.mulVec m.ang).map snd
      = X.rot.tr.mulVec (m.ang.map snd) - ν.ang.cross (X.rot.tr.mulVec (m.ang.map fst))
    rw [M3.map_snd_mulVec, trs, trf]
    ext <;> simp <;> ring

theorem SE3.Moves.const {X : SE3 K} : (X.map inl : SE3 K[ε]).Moves X 0 := by
  refine ⟨?_, ?_, ?_⟩ <;> ext <;> simp [SE3.map, M3.map, M3.skew]

/-! ## The loop of a composite joint -/

def lnv (l : List (SE3 K × Joint K)) : ℕ := (l.map fun p => p.2.nv).sum

theorem lnv_cons (p : SE3 K × Joint K) (l) : lnv (p :: l) = p.2.nv + lnv l := by simp [lnv]

theorem compStep_S (q w w' : ℕ → K) (e : CompElt K) (a a' : Option (CompAcc K))
    (h : a.map (fun x => (x.iM, x.S)) = a'.map (fun x => (x.iM, x.S))) :
    (compStep q w e a).iM = (compStep q w' e a').iM ∧ (compStep q w e a).S = (compStep q w' e a').S := by
  cases a with
  | none =>
    cases a' with
    | none => exact ⟨rfl, rfl⟩
    | some _ => simp at h
  | some a =>
    cases a' with
    | none => simp at h
    | some a' =>
      simp only [Option.map_some, Option.some.injEq, Prod.mk.injEq] at h
      simp [compStep, h.1, h.2]

/-- `M` and `S` do not depend on the velocity -/
theorem compLoop_S (q w w' : ℕ → K) (l : List (CompElt K)) :
    (compLoop q w l).map (fun x => (x.iM, x.S)) = (compLoop q w' l).map (fun x => (x.iM, x.S)) := by
  induction l with
  | nil => rfl
  | cons e l ih =>
    have := compStep_S q w w' e _ _ ih
    simp [compLoop, this.1, this.2]

/-- what the elements of a composite joint must satisfy -/
def EltsOk (q : ℕ → K) : List (SE3 K × Joint K) → ℕ → Prop
  | [], _ => True
  | (p, J) :: l, oq => p.Valid ∧ J.Ok (seg q oq) ∧ EltsOk q l (oq + J.nq)

/-- the loop leaves a rigid transform, and `v = S w` on the columns written so far -/
theorem compLoop_ok (q w : ℕ → K) : ∀ (l : List (SE3 K × Joint K)) (oq ov : ℕ), EltsOk q l oq → l ≠ [] →
    ∃ a, compLoop q w (compElts l oq ov) = some a ∧ a.iM.Valid ∧
      (∀ r, ¬ (ov ≤ r ∧ r < ov + lnv l) → a.S r = 0) ∧
      a.v = ∑ k ∈ range (lnv l), w (ov + k) • a.S (ov + k) := by
  intro l
  induction l with
  | nil => intro _ _ _ h; exact absurd rfl h
  | cons e l ih =>
    obtain ⟨p, J⟩ := e
    intro oq ov hok _
    obtain ⟨hp, hJ, hl⟩ := hok
    rw [lnv_cons]
    simp only [compElts, compLoop]
    have hv := hJ.vel (seg w ov)
    by_cases hne : l = []
    · subst hne
      refine ⟨_, rfl, SE3.Valid.mul hp hJ.valid, ?_, ?_⟩
      · intro r hr
        have hr' : ¬ (ov ≤ r ∧ r < ov + J.nv) := by simpa [lnv] using hr
        simp only [compLoop, compElts, compStep, putSeg, if_neg hr']
      · simp only [compLoop, compElts, compStep]
        rw [hv]
        unfold comb
        refine Finset.sum_congr (by simp [lnv]) fun k hk => ?_
        have hk' : k < J.nv := Finset.mem_range.1 hk
        simp only [putSeg, if_pos (show ov ≤ ov + k ∧ ov + k < ov + J.nv by omega), seg,
          Nat.add_sub_cancel_left]
    · obtain ⟨a, ha, hM, hS, hvs⟩ := ih (oq + J.nq) (ov + J.nv) hl hne
      rw [ha]
      refine ⟨_, rfl, SE3.Valid.mul (SE3.Valid.mul hp hJ.valid) hM, ?_, ?_⟩
      · intro r hr
        simp only [compStep, putSeg]
        rw [if_neg (by simp at hr ⊢; omega)]
        exact hS r (by simp at hr ⊢; omega)
      · simp only [compStep]
        rw [Finset.sum_range_add, hvs, hv, add_comm]
        congr 1
        · unfold comb
          rw [SE3.actInv_sum]
          refine Finset.sum_congr rfl fun k hk => ?_
          have hk' : k < J.nv := Finset.mem_range.1 hk
          simp only [putSeg, if_pos (show ov ≤ ov + k ∧ ov + k < ov + J.nv by omega), seg,
            Nat.add_sub_cancel_left]
          exact SE3.actInv_smul _ _ _
        · refine Finset.sum_congr rfl fun k _ => ?_
          simp only [putSeg, if_neg (show ¬ (ov ≤ ov + (J.nv + k) ∧ ov + (J.nv + k) < ov + J.nv) by omega),
            add_assoc]

theorem jComposite_ok {l : List (SE3 K × Joint K)} (hl : l ≠ []) {q : ℕ → K} (h : EltsOk q l 0) :
    (jComposite l).Ok q where
  valid := by
    obtain ⟨a, ha, hM, _⟩ := compLoop_ok q 0 l 0 0 h hl
    change (((compLoop q 0 (compElts l 0 0)).map CompAcc.iM).getD 1).Valid
    rw [ha]; exact hM
  vel w := by
    obtain ⟨a, ha, _, _, hv⟩ := compLoop_ok q w l 0 0 h hl
    obtain ⟨a0, ha0, _⟩ := compLoop_ok q 0 l 0 0 h hl
    have e := compLoop_S q w 0 (compElts l 0 0)
    rw [ha, ha0] at e
    simp only [Option.map_some, Option.some.injEq, Prod.mk.injEq] at e
    change ((compLoop q w (compElts l 0 0)).map CompAcc.v).getD 0
      = comb (((compLoop q 0 (compElts l 0 0)).map CompAcc.S).getD (fun _ => 0)) (lnv l) w
    rw [ha, ha0]
    simp only [Option.map_some, Option.getD_some]
    rw [hv, ← e.2]
    simp [comb]

/-- what the elements of a composite joint must satisfy along a motion; the second list is the same code
over dual numbers -/
def EltsKin (q w dq : ℕ → K) : List (SE3 K × Joint K) → List (SE3 K[ε] × Joint K[ε]) → ℕ → ℕ → Prop
  | [], [], _, _ => True
  | (p, J) :: l, (pε, Jε) :: lε, oq, ov => p.Valid ∧ pε = p.map inl ∧ Jε.nq = J.nq ∧ Jε.nv = J.nv ∧
      J.Ok (seg q oq) ∧ J.Kinematic Jε (seg q oq) (seg w ov) (seg dq oq) ∧
      EltsKin q w dq l lε (oq + J.nq) (ov + J.nv)
  | _, _, _, _ => False

theorem EltsKin.ok {q w dq : ℕ → K} : ∀ {l : List (SE3 K × Joint K)} {lε : List (SE3 K[ε] × Joint K[ε])}
    {oq ov : ℕ}, EltsKin q w dq l lε oq ov → EltsOk q l oq := by
  intro l
  induction l with
  | nil => intros; trivial
  | cons e l ih =>
    intro lε oq ov h
    cases lε with
    | nil => exact h.elim
    | cons eε lε => exact ⟨h.1, h.2.2.2.2.1, ih h.2.2.2.2.2.2⟩

theorem Motion.cross_sum {ι : Type*} (s : Finset ι) (a : Motion K) (f : ι → Motion K) :
    a.cross (∑ k ∈ s, f k) = ∑ k ∈ s, a.cross (f k) := by
  classical
  induction s using Finset.induction_on with
  | empty => ext <;> simp [Motion.cross]
  | insert i s hi ih => rw [Finset.sum_insert hi, Finset.sum_insert hi, ← ih]; ext <;> simp [Motion.cross] <;> ring

theorem Motion.map_snd_sum {ι : Type*} (s : Finset ι) (f : ι → Motion K) (X : SE3 K) (w : ι → K) :
    ∑ k ∈ s, w k • X.actInv (f k) = X.actInv (∑ k ∈ s, w k • f k) := by
  rw [SE3.actInv_sum]
  exact Finset.sum_congr rfl fun k _ => (SE3.actInv_smul _ _ _).symm

theorem compLoop_kin (q w dq : ℕ → K) : ∀ (l : List (SE3 K × Joint K)) (lε : List (SE3 K[ε] × Joint K[ε]))
    (oq ov : ℕ), EltsKin q w dq l lε oq ov → l ≠ [] →
    ∃ a aε, compLoop q w (compElts l oq ov) = some a ∧
      compLoop (perturb q dq) 0 (compElts lε oq ov) = some aε ∧
      aε.iM.Moves a.iM a.v ∧
      (∀ k, ov ≤ k → k < ov + lnv l → (aε.S k).map fst = a.S k) ∧
      ∑ k ∈ range (lnv l), w (ov + k) • (aε.S (ov + k)).map snd = a.c := by
  intro l
  induction l with
  | nil => intro _ _ _ _ h; exact absurd rfl h
  | cons e l ih =>
    obtain ⟨p, J⟩ := e
    intro lε oq ov hk _
    cases lε with
    | nil => exact hk.elim
    | cons eε lε =>
      obtain ⟨pε, Jε⟩ := eε
      obtain ⟨hp, hpε, hnq, hnv, hJ, hkin, hl⟩ := hk
      have hv := hJ.vel (seg w ov)
      have hpm : pε.Moves p 0 := by rw [hpε]; exact SE3.Moves.const
      have hm : (pε * Jε.M (seg (perturb q dq) oq)).Moves (p * J.M (seg q oq)) (J.v (seg q oq) (seg w ov)) := by
        have := hpm.mul hkin.moves hJ.valid
        rw [hv]
        rw [SE3.actInv_zero, add_zero] at this
        exact this
      rw [lnv_cons]
      simp only [compElts, compLoop]
      by_cases hne : l = []
      · subst hne
        cases lε with
        | cons _ _ => exact hl.elim
        | nil =>
          refine ⟨_, _, rfl, rfl, hm, ?_, ?_⟩
          · intro k h1 h2
            have h3 : ov ≤ k ∧ k < ov + J.nv := ⟨h1, by simpa [lnv] using h2⟩
            simp only [compElts, compLoop, compStep, putSeg, hnv, if_pos h3]
            exact hkin.base (k - ov) (by omega)
          · simp only [compElts, compLoop, compStep]
            rw [← hkin.bias]
            refine Finset.sum_congr (by simp [lnv]) fun k hk => ?_
            have hk' : k < J.nv := Finset.mem_range.1 hk
            simp only [putSeg, hnv, if_pos (show ov ≤ ov + k ∧ ov + k < ov + J.nv by omega), seg,
              Nat.add_sub_cancel_left]
            rfl
      · obtain ⟨a, aε, ha, haε, hM, hS, hc⟩ := ih lε (oq + J.nq) (ov + J.nv) hl hne
        obtain ⟨a', ha', hval, _, hvs⟩ := compLoop_ok q w l (oq + J.nq) (ov + J.nv) hl.ok hne
        rw [ha] at ha'
        obtain rfl := Option.some.inj ha'
        rw [ha, hnq, hnv, haε]
        refine ⟨_, _, rfl, rfl, ?_, ?_, ?_⟩
        · exact hm.mul hM hval
        · intro k h1 h2
          simp only [compStep, putSeg, hnv]
          by_cases h3 : k < ov + J.nv
          · rw [if_pos ⟨h1, h3⟩, if_pos ⟨h1, h3⟩, SE3.map_fst_actInv hM.base]
            exact congrArg _ (hkin.base (k - ov) (by omega))
          · rw [if_neg (by omega), if_neg (by omega)]
            exact hS k (by omega) (by omega)
        · simp only [compStep]
          rw [Finset.sum_range_add]
          have e1 : ∑ k ∈ range (lnv l), w (ov + (J.nv + k)) • Motion.map snd
              (putSeg aε.S ov Jε.nv (fun k => aε.iM.actInv (Jε.S (seg (perturb q dq) oq) k)) (ov + (J.nv + k)))
              = a.c := by
            rw [← hc]
            refine Finset.sum_congr rfl fun k _ => ?_
            simp only [putSeg, hnv,
              if_neg (show ¬ (ov ≤ ov + (J.nv + k) ∧ ov + (J.nv + k) < ov + J.nv) by omega), add_assoc]
          have e2 : ∑ k ∈ range J.nv, w (ov + k) • Motion.map snd
              (putSeg aε.S ov Jε.nv (fun k => aε.iM.actInv (Jε.S (seg (perturb q dq) oq) k)) (ov + k))
              = a.iM.actInv (J.c (seg q oq) (seg w ov))
                - a.v.cross (a.iM.actInv (J.v (seg q oq) (seg w ov))) := by
            rw [← hkin.bias, hv]
            unfold comb
            rw [← Motion.map_snd_sum, ← Motion.map_snd_sum, Motion.cross_sum, ← Finset.sum_sub_distrib]
            refine Finset.sum_congr rfl fun k hk => ?_
            have hk' : k < J.nv := Finset.mem_range.1 hk
            simp only [putSeg, hnv, if_pos (show ov ≤ ov + k ∧ ov + k < ov + J.nv by omega), seg,
              Nat.add_sub_cancel_left]
            rw [hM.snd_actInv hval, Motion.cross_smul, ← smul_sub]
            congr 3
            exact congrArg a.iM.actInv (hkin.base k hk')
          rw [e1, e2]
          have e3 : (a.v + a.iM.actInv (J.v (seg q oq) (seg w ov))).cross
              (a.iM.actInv (J.v (seg q oq) (seg w ov)))
              = a.v.cross (a.iM.actInv (J.v (seg q oq) (seg w ov))) := by
            ext <;> simp [Motion.cross] <;> ring
          rw [e3]
          abel

theorem jComposite_kin {l : List (SE3 K × Joint K)} {lε : List (SE3 K[ε] × Joint K[ε])} (hl : l ≠ [])
    {q w dq : ℕ → K} (h : EltsKin q w dq l lε 0 0) :
    (jComposite l).Kinematic (jComposite lε) q w dq := by
  obtain ⟨a, aε, ha, haε, hM, hS, hc⟩ := compLoop_kin q w dq l lε 0 0 h hl
  obtain ⟨a0, ha0, _⟩ := compLoop_ok q 0 l 0 0 h.ok hl
  have e := compLoop_S q w 0 (compElts l 0 0)
  rw [ha, ha0] at e
  simp only [Option.map_some, Option.some.injEq, Prod.mk.injEq] at e
  have eM : (jComposite l).M q = a0.iM := by
    change ((compLoop q 0 (compElts l 0 0)).map CompAcc.iM).getD 1 = _
    rw [ha0]; rfl
  have eS : (jComposite l).S q = a0.S := by
    change ((compLoop q 0 (compElts l 0 0)).map CompAcc.S).getD _ = _
    rw [ha0]; rfl
  have ec : (jComposite l).c q w = a.c := by
    change ((compLoop q w (compElts l 0 0)).map CompAcc.c).getD 0 = _
    rw [ha]; rfl
  have ev : (jComposite l).v q w = a.v := by
    change ((compLoop q w (compElts l 0 0)).map CompAcc.v).getD 0 = _
    rw [ha]; rfl
  have eMε : (jComposite lε).M (perturb q dq) = aε.iM := by
    change ((compLoop (perturb q dq) 0 (compElts lε 0 0)).map CompAcc.iM).getD 1 = _
    rw [haε]; rfl
  have eSε : (jComposite lε).S (perturb q dq) = aε.S := by
    change ((compLoop (perturb q dq) 0 (compElts lε 0 0)).map CompAcc.S).getD _ = _
    rw [haε]; rfl
  refine ⟨?_, ?_, ?_⟩
  · rw [← (jComposite_ok hl h.ok).vel w, ev, eM, eMε, ← e.1]
    exact hM
  · intro k hk
    rw [eS, eSε, ← e.2]
    exact hS k (Nat.zero_le _) (by have h' : k < lnv l := hk; omega)
  · rw [eSε, ec, ← hc]
    change ∑ k ∈ range (lnv l), _ = _
    simp

/-! ## Mimic joints -/

/-- a mimic joint whose mimicking joint has the constant motion subspace `S0` -/
theorem jMimic_ok {J : Joint K} {S0 : ℕ → Motion K} {aff : K → K → (ℕ → K) → ℕ → K} {r o : K} {q : ℕ → K}
    (h : J.Ok (aff r o q)) (hS : ∀ k, k < J.nv → J.S (aff r o q) k = S0 k) : (jMimic J S0 aff r o).Ok q where
  valid := h.valid
  vel w := by
    change J.v (aff r o q) (fun k => r * w k) = comb (fun k => r • S0 k) J.nv w
    rw [h.vel]
    unfold comb
    refine Finset.sum_congr rfl fun k hk => ?_
    rw [hS k (Finset.mem_range.1 hk), smul_smul, mul_comm]

/-- and, for the joints moving on a vector space, it moves with `S w` -/
theorem jMimic_kin {J : Joint K} {Jε : Joint K[ε]} {S0 : ℕ → Motion K} {r o : K} {q w : ℕ → K}
    (hJ : J.Kinematic Jε (linearAffine r o q) (fun k => r * w k) (fun k => r * w k))
    (hS : ∀ k, k < J.nv → J.S (linearAffine r o q) k = S0 k)
    (hc : J.c (linearAffine r o q) (fun k => r * w k) = 0) :
    (jMimic J S0 linearAffine r o).Kinematic
      (jMimic Jε (fun k => (S0 k).map inl) linearAffine (inl r) (inl o)) q w w := by
  have hp : linearAffine (inl r) (inl o) (perturb q w) = perturb (linearAffine r o q) (fun k => r * w k) := by
    funext k
    ext <;> simp [linearAffine, perturb]
  refine ⟨?_, ?_, ?_⟩
  · change (Jε.M (linearAffine (inl r) (inl o) (perturb q w))).Moves (J.M (linearAffine r o q))
      (comb (fun k => r • S0 k) J.nv w)
    rw [hp]
    have e : comb (fun k => r • S0 k) J.nv w = comb (J.S (linearAffine r o q)) J.nv (fun k => r * w k) := by
      unfold comb
      refine Finset.sum_congr rfl fun k hk => ?_
      rw [hS k (Finset.mem_range.1 hk), smul_smul, mul_comm]
    rw [e]
    exact hJ.moves
  · intro k _
    ext <;> simp [jMimic, Motion.map]
  · change ∑ k ∈ range J.nv, w k • (((inl r : K[ε]) • (S0 k).map inl).map snd) = J.c _ _
    rw [hc]
    refine Finset.sum_eq_zero fun k _ => ?_
    ext <;> simp [Motion.map]
end Pin
