import Verif.Joint.Lemmas
import Mathlib.Tactic.IntervalCases

/-! # The joint types along a motion: `Ṁ = M [S w]`, `Ṡ w = c` -/

namespace Pin
open Finset DualNumber TrivSqZeroExt
universe u
variable {K : Type u} [CommRing K]

theorem fst_sin [Trig K] (x : K[ε]) : (Trig.sin x : K[ε]).fst = Trig.sin x.fst := by
  change (inl (Trig.sin x.fst) + inr (x.snd * Trig.cos x.fst) : K[ε]).fst = _; simp
theorem snd_sin [Trig K] (x : K[ε]) : (Trig.sin x : K[ε]).snd = x.snd * Trig.cos x.fst := by
  change (inl (Trig.sin x.fst) + inr (x.snd * Trig.cos x.fst) : K[ε]).snd = _; simp
theorem fst_cos [Trig K] (x : K[ε]) : (Trig.cos x : K[ε]).fst = Trig.cos x.fst := by
  change (inl (Trig.cos x.fst) + inr (-(x.snd * Trig.sin x.fst)) : K[ε]).fst = _; simp
theorem snd_cos [Trig K] (x : K[ε]) : (Trig.cos x : K[ε]).snd = -(x.snd * Trig.sin x.fst) := by
  change (inl (Trig.cos x.fst) + inr (-(x.snd * Trig.sin x.fst)) : K[ε]).snd = _; simp
theorem fst_perturb (q dq : ℕ → K) (k : ℕ) : (perturb q dq k).fst = q k := by simp [perturb]
theorem snd_perturb (q dq : ℕ → K) (k : ℕ) : (perturb q dq k).snd = dq k := by simp [perturb]

theorem fst_two : (2 : K[ε]).fst = 2 := by
  rw [show (2 : K[ε]) = 1 + 1 by norm_num, fst_add, fst_one]; norm_num
theorem snd_two : (2 : K[ε]).snd = 0 := by
  rw [show (2 : K[ε]) = 1 + 1 by norm_num, snd_add, snd_one]; norm_num

macro "dual_simp" "[" ls:Lean.Parser.Tactic.simpLemma,* "]" : tactic =>
  `(tactic| simp [SE3.map, M3.map, Motion.map, fst_sin, snd_sin, fst_cos, snd_cos, fst_perturb, snd_perturb,
      cols, comb, Finset.sum_range_succ, M3.skew, V3.axis, V3.ofSeq, rotAxis, seg, fst_two, snd_two, $ls,*])

/-- change of frame of a skew matrix -/
theorem M3.skew_conj {R : M3 K} (h : R.IsRot) (v : V3 K) : M3.skew v * R = R * M3.skew (R.tr.mulVec v) := by
  have key : ∀ u, (M3.skew v * R).mulVec u = (R * M3.skew (R.tr.mulVec v)).mulVec u := by
    intro u
    rw [M3.mulVec_mulVec, M3.mulVec_mulVec, M3.skew_mulVec, M3.skew_mulVec, h.mulVec_cross,
      h.mulVec_tr_mulVec]
  have e0 := key ⟨1, 0, 0⟩
  have e1 := key ⟨0, 1, 0⟩
  have e2 := key ⟨0, 0, 1⟩
  simp only [V3.ext_iff, M3.mulVec, mul_zero, mul_one, add_zero, zero_add] at e0 e1 e2
  ext
  · exact e0.1
  · exact e1.1
  · exact e2.1
  · exact e0.2.1
  · exact e1.2.1
  · exact e2.2.1
  · exact e0.2.2
  · exact e1.2.2
  · exact e2.2.2

theorem M3.map_fst_mul (A B : M3 K[ε]) : (A * B).map fst = A.map fst * B.map fst := by
  ext <;> simp [M3.map]
theorem M3.map_snd_mul (A B : M3 K[ε]) : (A * B).map snd = A.map snd * B.map fst + A.map fst * B.map snd := by
  ext <;> simp [M3.map] <;> ring
theorem V3.map_fst_add (a b : V3 K[ε]) : (a + b).map fst = a.map fst + b.map fst := by
  ext <;> simp
theorem V3.map_snd_add (a b : V3 K[ε]) : (a + b).map snd = a.map snd + b.map snd := by
  ext <;> simp
theorem M3.map_fst_mulVec (A : M3 K[ε]) (b : V3 K[ε]) : (A.mulVec b).map fst = (A.map fst).mulVec (b.map fst) := by
  ext <;> simp [M3.map]
theorem M3.map_snd_mulVec (A : M3 K[ε]) (b : V3 K[ε]) :
    (A.mulVec b).map snd = (A.map snd).mulVec (b.map fst) + (A.map fst).mulVec (b.map snd) := by
  ext <;> simp [M3.map] <;> ring

/-- composition of moving frames -/
theorem SE3.Moves.mul {Aε Bε : SE3 K[ε]} {A B : SE3 K} {α β : Motion K} (hA : Aε.Moves A α) (hB : Bε.Moves B β)
    (vB : B.Valid) : (Aε * Bε).Moves (A * B) (β + B.actInv α) := by
  have a1 : Aε.rot.map fst = A.rot := congrArg SE3.rot hA.base
  have a2 : Aε.trans.map fst = A.trans := congrArg SE3.trans hA.base
  have b1 : Bε.rot.map fst = B.rot := congrArg SE3.rot hB.base
  have b2 : Bε.trans.map fst = B.trans := congrArg SE3.trans hB.base
  refine ⟨?_, ?_, ?_⟩
  · ext1
    · change (Aε.rot * Bε.rot).map fst = A.rot * B.rot
      rw [M3.map_fst_mul, a1, b1]
    · change (Aε.trans + Aε.rot.mulVec Bε.trans).map fst = A.trans + A.rot.mulVec B.trans
      rw [V3.map_fst_add, M3.map_fst_mulVec, a1, a2, b2]
  · change (Aε.rot * Bε.rot).map snd = A.rot * B.rot * M3.skew (β.ang + B.rot.tr.mulVec α.ang)
    rw [M3.map_snd_mul, a1, b1, hA.rot, hB.rot, M3.mul_assoc', M3.skew_conj vB, M3.mul_assoc']
    have : M3.skew (β.ang + B.rot.tr.mulVec α.ang) = M3.skew β.ang + M3.skew (B.rot.tr.mulVec α.ang) := by
      ext <;> simp [M3.skew] <;> ring
    rw [this]
    ext <;> simp <;> ring
  · change (Aε.trans + Aε.rot.mulVec Bε.trans).map snd
      = (A.rot * B.rot).mulVec (β.lin + B.rot.tr.mulVec (α.lin - B.trans.cross α.ang))
    rw [V3.map_snd_add, M3.map_snd_mulVec, a1, b2, hA.trans, hA.rot, hB.trans, M3.mulVec_mulVec, M3.mulVec_mulVec,
      M3.mulVec_add, vB.mulVec_tr_mulVec, M3.skew_mulVec, ← M3.mulVec_add, ← M3.mulVec_add]
    congr 1
    ext <;> simp <;> ring

/-- Rodrigues' formula along a rotation at rate `w` -/
theorem toRotationMatrix_moves {u : V3 K} (hu : u.sqNorm = 1) {cε sε : K[ε]} {c s w : K}
    (hc : cε.fst = c) (hs : sε.fst = s) (hc' : cε.snd = - (s * w)) (hs' : sε.snd = c * w) :
    (toRotationMatrix (u.map inl) cε sε).map snd = toRotationMatrix u c s * M3.skew (w • u) := by
  simp only [V3.sqNorm] at hu
  ext <;> simp [M3.map, toRotationMatrix, M3.skew, hc, hs, hc', hs'] <;>
    first | ring1 | linear_combination (s * w) * hu

theorem toRotationMatrix_fst {u : V3 K} {cε sε : K[ε]} :
    (toRotationMatrix (u.map inl) cε sε).map fst = toRotationMatrix u cε.fst sε.fst := by
  ext <;> simp [M3.map, toRotationMatrix]

theorem quatMat_fst (x y z w : K[ε]) : (quatMat x y z w).map fst = quatMat x.fst y.fst z.fst w.fst := by
  ext <;> simp [M3.map, quatMat, fst_two]

/-- the rotation matrix of a quaternion turning with body angular velocity `ω` -/
theorem quatMat_moves {x y z w dx dy dz dw : K} {ω : V3 K} (hq : x * x + y * y + z * z + w * w = 1)
    (hx : 2 * dx = w * ω.x + (y * ω.z - z * ω.y)) (hy : 2 * dy = w * ω.y + (z * ω.x - x * ω.z))
    (hz : 2 * dz = w * ω.z + (x * ω.y - y * ω.x)) (hw : 2 * dw = - (x * ω.x + y * ω.y + z * ω.z)) :
    (quatMat (inl x + inr dx : K[ε]) (inl y + inr dy) (inl z + inr dz) (inl w + inr dw)).map snd
      = quatMat x y z w * M3.skew ω := by
  ext <;> simp [M3.map, quatMat, M3.skew, fst_two, snd_two]
  · linear_combination (-2 * y) * hy + (-2 * z) * hz
  · linear_combination y * hx + x * hy - w * hz - z * hw - ω.z * hq
  · linear_combination z * hx + x * hz + w * hy + y * hw + ω.y * hq
  · linear_combination y * hx + x * hy + w * hz + z * hw + ω.z * hq
  · linear_combination (-2 * x) * hx + (-2 * z) * hz
  · linear_combination z * hy + y * hz - w * hx - x * hw - ω.x * hq
  · linear_combination z * hx + x * hz - w * hy - y * hw - ω.y * hq
  · linear_combination z * hy + y * hz + w * hx + x * hw + ω.x * hq
  · linear_combination (-2 * x) * hx + (-2 * y) * hy

theorem jRevolute_kin (a : Fin 3) [Trig K] (q w : ℕ → K) :
    (jRevolute a : Joint K).Kinematic (jRevolute a) q w w where
  moves := by
    fin_cases a <;>
    · refine ⟨?_, ?_, ?_⟩
      · ext <;> dual_simp [jRevolute]
      · ext <;> dual_simp [jRevolute] <;> try ring1
      · ext <;> dual_simp [jRevolute] <;> try ring1
  base k hk := by
    replace hk : k < 1 := hk
    interval_cases k <;> fin_cases a <;> ext <;> dual_simp [jRevolute]
  bias := by
    fin_cases a <;> ext <;> dual_simp [jRevolute] <;> try ring1

theorem jRevoluteUnaligned_kin {u : V3 K} (hu : u.sqNorm = 1) [Trig K] (q w : ℕ → K) :
    (jRevoluteUnaligned u).Kinematic (jRevoluteUnaligned (u.map inl)) q w w where
  moves := by
    refine ⟨?_, ?_, ?_⟩
    · ext1
      · change (toRotationMatrix (u.map inl) _ _).map fst = toRotationMatrix u _ _
        rw [toRotationMatrix_fst]
        simp only [fst_cos, fst_sin, fst_perturb]
      · ext <;> dual_simp [jRevoluteUnaligned]
    · change (toRotationMatrix (u.map inl) _ _).map snd = toRotationMatrix u _ _ * _
      rw [toRotationMatrix_moves hu (w := w 0) (fst_cos _) (fst_sin _) (by simp [snd_cos, fst_perturb, snd_perturb, mul_comm]) (by simp [snd_sin, fst_perturb, snd_perturb, mul_comm]), fst_perturb]
      congr 1
      ext <;> dual_simp [jRevoluteUnaligned]
    · ext <;> dual_simp [jRevoluteUnaligned] <;> try ring1
  base k hk := by
    replace hk : k < 1 := hk
    interval_cases k <;> ext <;> dual_simp [jRevoluteUnaligned, toRotationMatrix]
  bias := by
    ext <;> dual_simp [jRevoluteUnaligned, toRotationMatrix] <;> try ring1

theorem jRUB_kin (a : Fin 3) (q w : ℕ → K) :
    (jRUB a : Joint K).Kinematic (jRUB a) q w (circleDot q w) where
  moves := by
    fin_cases a <;>
    · refine ⟨?_, ?_, ?_⟩
      · ext <;> dual_simp [jRUB, circleDot]
      · ext <;> dual_simp [jRUB, circleDot] <;> try ring1
      · ext <;> dual_simp [jRUB, circleDot] <;> try ring1
  base k hk := by
    replace hk : k < 1 := hk
    interval_cases k <;> fin_cases a <;> ext <;> dual_simp [jRUB, circleDot]
  bias := by
    fin_cases a <;> ext <;> dual_simp [jRUB, circleDot] <;> try ring1

theorem jRUBUnaligned_kin {u : V3 K} (hu : u.sqNorm = 1) (q w : ℕ → K) :
    (jRUBUnaligned u).Kinematic (jRUBUnaligned (u.map inl)) q w (circleDot q w) where
  moves := by
    refine ⟨?_, ?_, ?_⟩
    · ext1
      · change (toRotationMatrix (u.map inl) _ _).map fst = toRotationMatrix u _ _
        rw [toRotationMatrix_fst]
        simp only [fst_cos, fst_sin, fst_perturb]
      · ext <;> dual_simp [jRUBUnaligned]
    · change (toRotationMatrix (u.map inl) _ _).map snd = toRotationMatrix u _ _ * _
      rw [toRotationMatrix_moves hu (w := w 0) (fst_perturb _ _ _) (fst_perturb _ _ _) (by simp [snd_perturb, circleDot]) (by simp [snd_perturb, circleDot])]
      congr 1
      ext <;> dual_simp [jRUBUnaligned]
    · ext <;> dual_simp [jRUBUnaligned] <;> try ring1
  base k hk := by
    replace hk : k < 1 := hk
    interval_cases k <;> ext <;> dual_simp [jRUBUnaligned, toRotationMatrix, circleDot]
  bias := by
    ext <;> dual_simp [jRUBUnaligned, toRotationMatrix, circleDot] <;> try ring1

theorem jPrismatic_kin (a : Fin 3) (q w : ℕ → K) :
    (jPrismatic a : Joint K).Kinematic (jPrismatic a) q w w where
  moves := by
    fin_cases a <;>
    · refine ⟨?_, ?_, ?_⟩
      · ext <;> dual_simp [jPrismatic]
      · ext <;> dual_simp [jPrismatic] <;> try ring1
      · ext <;> dual_simp [jPrismatic] <;> try ring1
  base k hk := by
    replace hk : k < 1 := hk
    interval_cases k <;> fin_cases a <;> ext <;> dual_simp [jPrismatic]
  bias := by
    fin_cases a <;> ext <;> dual_simp [jPrismatic] <;> try ring1

theorem jPrismaticUnaligned_kin (u : V3 K) (q w : ℕ → K) :
    (jPrismaticUnaligned u).Kinematic (jPrismaticUnaligned (u.map inl)) q w w where
  moves := by
    · refine ⟨?_, ?_, ?_⟩
      · ext <;> dual_simp [jPrismaticUnaligned]
      · ext <;> dual_simp [jPrismaticUnaligned] <;> try ring1
      · ext <;> dual_simp [jPrismaticUnaligned] <;> try ring1
  base k hk := by
    replace hk : k < 1 := hk
    interval_cases k <;> ext <;> dual_simp [jPrismaticUnaligned]
  bias := by
    ext <;> dual_simp [jPrismaticUnaligned] <;> try ring1

theorem jTranslation_kin (q w : ℕ → K) :
    (jTranslation : Joint K).Kinematic (jTranslation) q w w where
  moves := by
    · refine ⟨?_, ?_, ?_⟩
      · ext <;> dual_simp [jTranslation]
      · ext <;> dual_simp [jTranslation] <;> try ring1
      · ext <;> dual_simp [jTranslation] <;> try ring1
  base k hk := by
    replace hk : k < 3 := hk
    interval_cases k <;> ext <;> dual_simp [jTranslation]
  bias := by
    ext <;> dual_simp [jTranslation] <;> try ring1

theorem jPlanar_kin (q w : ℕ → K) :
    (jPlanar : Joint K).Kinematic (jPlanar) q w (planarDot q w) where
  moves := by
    · refine ⟨?_, ?_, ?_⟩
      · ext <;> dual_simp [jPlanar, planarDot]
      · ext <;> dual_simp [jPlanar, planarDot] <;> try ring1
      · ext <;> dual_simp [jPlanar, planarDot] <;> try ring1
  base k hk := by
    replace hk : k < 3 := hk
    interval_cases k <;> ext <;> dual_simp [jPlanar, planarDot]
  bias := by
    ext <;> dual_simp [jPlanar, planarDot] <;> try ring1

theorem jSpherical_kin {q dq w : ℕ → K} (hq : q 0 * q 0 + q 1 * q 1 + q 2 * q 2 + q 3 * q 3 = 1)
    (h : QuatDot q dq (V3.ofSeq w)) :
    (jSpherical : Joint K).Kinematic (jSpherical) q w dq where
  moves := by
    refine ⟨?_, ?_, ?_⟩
    · ext1
      · change (quatMat _ _ _ _).map fst = quatMat _ _ _ _
        rw [quatMat_fst]
        simp only [fst_perturb]
      · ext <;> dual_simp [jSpherical]
    · change (quatMat _ _ _ _).map snd = quatMat _ _ _ _ * _
      simp only [perturb]
      rw [quatMat_moves hq h.x h.y h.z h.w]
      congr 1
      ext <;> dual_simp [jSpherical]
    · ext <;> dual_simp [jSpherical]
  base k hk := by
    replace hk : k < 3 := hk
    interval_cases k <;> ext <;> dual_simp [jSpherical, quatMat]
  bias := by
    ext <;> dual_simp [jSpherical, quatMat] <;> try ring1

theorem jFreeFlyer_kin {q dq w : ℕ → K} (hq : q 3 * q 3 + q 4 * q 4 + q 5 * q 5 + q 6 * q 6 = 1)
    (ht : V3.ofSeq dq = (quatMat (q 3) (q 4) (q 5) (q 6)).mulVec (V3.ofSeq w))
    (h : QuatDot (seg q 3) (seg dq 3) (V3.ofSeq (seg w 3))) :
    (jFreeFlyer : Joint K).Kinematic (jFreeFlyer) q w dq where
  moves := by
    refine ⟨?_, ?_, ?_⟩
    · ext1
      · change (quatMat _ _ _ _).map fst = quatMat _ _ _ _
        rw [quatMat_fst]
        simp only [fst_perturb]
      · ext <;> dual_simp [jFreeFlyer]
    · change (quatMat _ _ _ _).map snd = quatMat _ _ _ _ * _
      simp only [perturb]
      have e := quatMat_moves hq h.x h.y h.z h.w
      simp only [seg] at e
      rw [e]
      congr 1
      ext <;> dual_simp [jFreeFlyer]
    · have e : ((jFreeFlyer : Joint K[ε]).M (perturb q dq)).trans.map snd = V3.ofSeq dq := by
        ext <;> dual_simp [jFreeFlyer]
      rw [e, ht]
      change _ = (quatMat _ _ _ _).mulVec _
      congr 1
      ext <;> dual_simp [jFreeFlyer]
  base k hk := by
    replace hk : k < 6 := hk
    interval_cases k <;> ext <;> dual_simp [jFreeFlyer, quatMat]
  bias := by
    ext <;> dual_simp [jFreeFlyer, quatMat] <;> try ring1

theorem jSphericalZYX_kin [Trig K] (q w : ℕ → K) :
    (jSphericalZYX : Joint K).Kinematic (jSphericalZYX) q w w where
  moves := by
    have m0 := (jRevolute_kin 2 q w).moves
    have m1 := (jRevolute_kin 1 (seg q 1) (seg w 1)).moves
    have m2 := (jRevolute_kin 0 (seg q 2) (seg w 2)).moves
    have m := (m0.mul m1 (jRevolute_ok 1 (seg q 1)).valid).mul m2 (jRevolute_ok 0 (seg q 2)).valid
    have eM : ∀ {L : Type u} [CommRing L] [Trig L] (x : ℕ → L), (jSphericalZYX : Joint L).M x
        = (jRevolute 2).M x * (jRevolute 1).M (seg x 1) * (jRevolute 0).M (seg x 2) := by
      intro L _ _ x
      ext <;> simp [jSphericalZYX, jRevolute, rotAxis, seg] <;> ring
    have es : ∀ k, seg (perturb q w) k = perturb (seg q k) (seg w k) := fun k => rfl
    have ev : comb ((jSphericalZYX : Joint K).S q) 3 w
        = comb ((jRevolute 0).S (seg q 2)) 1 (seg w 2) + ((jRevolute 0).M (seg q 2)).actInv
          (comb ((jRevolute 1).S (seg q 1)) 1 (seg w 1) + ((jRevolute 1).M (seg q 1)).actInv
            (comb ((jRevolute 2).S q) 1 w)) := by
      ext <;> simp [jSphericalZYX, jRevolute, comb, Finset.sum_range_succ, cols, V3.axis, SE3.actInv, rotAxis,
        seg] <;> ring
    rw [eM, eM, es, es]
    exact ev ▸ m
  base k hk := by
    replace hk : k < 3 := hk
    interval_cases k <;> ext <;> dual_simp [jSphericalZYX]
  bias := by
    ext <;> dual_simp [jSphericalZYX] <;> try ring1

theorem jUniversal_kin {a1 a2 : V3 K} (h1 : a1.sqNorm = 1) (h2 : a2.sqNorm = 1) [Trig K] (q w : ℕ → K) :
    (jUniversal a1 a2).Kinematic (jUniversal (a1.map inl) (a2.map inl)) q w w where
  moves := by
    have m0 := (jRevoluteUnaligned_kin h1 q w).moves
    have m1 := (jRevoluteUnaligned_kin h2 (seg q 1) (seg w 1)).moves
    have m := m0.mul m1 (jRevoluteUnaligned_ok h2 (seg q 1)).valid
    have eM : ∀ {L : Type u} [CommRing L] [Trig L] (a b : V3 L) (x : ℕ → L), (jUniversal a b).M x
        = (jRevoluteUnaligned a).M x * (jRevoluteUnaligned b).M (seg x 1) := by
      intro L _ _ a b x
      ext <;> simp [jUniversal, jRevoluteUnaligned, seg]
    have es : ∀ k, seg (perturb q w) k = perturb (seg q k) (seg w k) := fun k => rfl
    have ev : comb ((jUniversal a1 a2).S q) 2 w
        = comb ((jRevoluteUnaligned a2).S (seg q 1)) 1 (seg w 1) + ((jRevoluteUnaligned a2).M (seg q 1)).actInv
          (comb ((jRevoluteUnaligned a1).S q) 1 w) := by
      ext <;> simp [jUniversal, jRevoluteUnaligned, comb, Finset.sum_range_succ, cols, SE3.actInv, seg] <;> ring
    rw [eM, eM, es]
    exact ev ▸ m
  base k hk := by
    replace hk : k < 2 := hk
    interval_cases k <;> ext <;> dual_simp [jUniversal, toRotationMatrix]
  bias := by
    ext <;> dual_simp [jUniversal, toRotationMatrix] <;> try ring1

theorem jHelical_kin (a : Fin 3) (h : K) [Trig K] (q w : ℕ → K) :
    (jHelical a h : Joint K).Kinematic (jHelical a (inl h)) q w w where
  moves := by
    fin_cases a <;>
    · refine ⟨?_, ?_, ?_⟩
      · ext <;> dual_simp [jHelical]
      · ext <;> dual_simp [jHelical] <;> try ring1
      · ext <;> dual_simp [jHelical] <;> try ring1
  base k hk := by
    replace hk : k < 1 := hk
    interval_cases k <;> fin_cases a <;> ext <;> dual_simp [jHelical]
  bias := by
    fin_cases a <;> ext <;> dual_simp [jHelical] <;> try ring1

theorem jHelicalUnaligned_kin {u : V3 K} (hu : u.sqNorm = 1) (h : K) [Trig K] (q w : ℕ → K) :
    (jHelicalUnaligned u h : Joint K).Kinematic (jHelicalUnaligned (u.map inl) (inl h)) q w w where
  moves := by
    refine ⟨?_, ?_, ?_⟩
    · ext1
      · change (toRotationMatrix (u.map inl) _ _).map fst = toRotationMatrix u _ _
        rw [toRotationMatrix_fst]
        simp only [fst_cos, fst_sin, fst_perturb]
      · ext <;> dual_simp [jHelicalUnaligned]
    · change (toRotationMatrix (u.map inl) _ _).map snd = toRotationMatrix u _ _ * _
      rw [toRotationMatrix_moves hu (w := w 0) (fst_cos _) (fst_sin _) (by simp [snd_cos, fst_perturb, snd_perturb, mul_comm]) (by simp [snd_sin, fst_perturb, snd_perturb, mul_comm]), fst_perturb]
      congr 1
      ext <;> dual_simp [jHelicalUnaligned]
    · simp only [V3.sqNorm] at hu
      ext <;> dual_simp [jHelicalUnaligned, toRotationMatrix]
      · linear_combination (-(w 0 * h * u.x * (1 - Trig.cos (q 0)))) * hu
      · linear_combination (-(w 0 * h * u.y * (1 - Trig.cos (q 0)))) * hu
      · linear_combination (-(w 0 * h * u.z * (1 - Trig.cos (q 0)))) * hu
  base k hk := by
    replace hk : k < 1 := hk
    interval_cases k <;> ext <;> dual_simp [jHelicalUnaligned, toRotationMatrix]
  bias := by
    ext <;> dual_simp [jHelicalUnaligned, toRotationMatrix] <;> try ring1

end Pin
