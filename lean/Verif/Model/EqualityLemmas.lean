import Verif.Model.Equality

/-! # Helper lemmas on comparison and change of scalar type -/

namespace Pin
variable {K L : Type}
open Arch

theorem Flt.eq_of_ceq [DecidableEq K] {a b : Flt K} (h : a.ceq b = true) : a = b := by
  cases a <;> cases b <;> simp_all [Flt.ceq]

theorem Tok.eq_of_ceq [DecidableEq K] {a b : Tok K} (h : a.ceq b = true) : a = b := by
  cases a <;> cases b <;> simp_all [Tok.ceq]
  exact Flt.eq_of_ceq h

theorem eq_of_ceqL [DecidableEq K] {a b : List (Tok K)} (h : ceqL a b = true) : a = b := by
  induction a generalizing b with
  | nil => cases b <;> simp_all [ceqL]
  | cons x l ih =>
    cases b with
    | nil => simp [ceqL] at h
    | cons y l' =>
      rw [ceqL, Bool.and_eq_true] at h
      rw [Tok.eq_of_ceq h.1, ih h.2]

theorem rds_binary (l : List (Tok K)) : Rds .binary l := fun x _ => by cases x <;> rfl

theorem save_inj {α : Type} [Arch K α] [LArch K α] {a b : α} (h : (save a : List (Tok K)) = save b) : a = b := by
  have h1 := LArch.law .binary a ([] : List (Tok K)) (rds_binary _)
  have h2 := LArch.law .binary b ([] : List (Tok K)) (rds_binary _)
  rw [h] at h1
  exact (Prod.mk.inj (Option.some.inj (h1.symm.trans h2))).1

theorem eq_of_same [DecidableEq K] {α : Type} [Arch K α] [LArch K α] {a b : α} (h : same K a b = true) : a = b :=
  save_inj (eq_of_ceqL h)

/-- no NaN among the values -/
def NoNaN (l : List (Tok K)) : Prop := Tok.num .nan ∉ l

theorem noNaN_append {a b : List (Tok K)} : NoNaN (a ++ b) ↔ NoNaN a ∧ NoNaN b := by simp [NoNaN]

theorem noNaN_nat {n : ℕ} {b : List (Tok K)} : NoNaN (.nat n :: b) ↔ NoNaN b := by simp [NoNaN]

theorem ceqL_refl [DecidableEq K] {l : List (Tok K)} (h : NoNaN l) : ceqL l l = true := by
  induction l with
  | nil => rfl
  | cons x l ih =>
    have h1 : NoNaN l := fun e => h (by simp [e])
    have h2 : x ≠ .num .nan := fun e => h (by simp [e])
    rw [ceqL, ih h1, Bool.and_true]
    cases x with
    | num y => cases y <;> simp_all [Tok.ceq, Flt.ceq]
    | _ => simp [Tok.ceq]

theorem same_refl [DecidableEq K] {α : Type} [Arch K α] {a : α} (h : NoNaN (save a : List (Tok K))) :
    same K a a = true := ceqL_refl h

namespace SJoint

mutual
/-- no `JointModelHX`, `HY`, `HZ` and no mimic joint, at any depth -/
def transparent : SJoint K → Bool
  | .composite _ _ js _ => transparents js
  | .mimic _ _ _ _ _ _ => false
  | .helical _ _ _ => false
  | _ => true
/-- see `transparent` -/
def transparents : List (SJoint K) → Bool
  | [] => true
  | j :: js => transparent j && transparents js
end

mutual
theorem eq_of_jeq [DecidableEq K] : ∀ (a b : SJoint K), a.transparent = true → jeq a b = true → a = b
  | .plain k ix, b, _, h => by cases b <;> simp_all [jeq]
  | .axis k ix a, b, _, h => by
    cases b <;> simp_all [jeq]
    exact eq_of_same h.2
  | .helical _ _ _, _, ht, _ => by simp [transparent] at ht
  | .helicalUnaligned ix a p, b, _, h => by
    cases b <;> simp_all [jeq]
    exact ⟨eq_of_same h.1.2, eq_of_same h.2⟩
  | .universal ix a p, b, _, h => by
    cases b <;> simp_all [jeq]
    exact ⟨eq_of_same h.1.2, eq_of_same h.2⟩
  | .composite ix t js ps, b, ht, h => by
    rw [transparent] at ht
    cases b with
    | composite ix' t' js' ps' =>
      simp only [jeq, Bool.and_eq_true, decide_eq_true_eq] at h
      obtain ⟨⟨⟨h1, h2⟩, h3⟩, h4⟩ := h
      rw [h1, h2, eqs_of_jeqs js js' ht h3, eq_of_same h4]
    | _ => simp [jeq] at h
  | .mimic _ _ _ _ _ _, _, ht, _ => by simp [transparent] at ht
theorem eqs_of_jeqs [DecidableEq K] : ∀ (a b : List (SJoint K)), transparents a = true → jeqs a b = true → a = b
  | [], b, _, h => by cases b <;> simp_all [jeqs]
  | j :: js, b, ht, h => by
    rw [transparents, Bool.and_eq_true] at ht
    cases b with
    | nil => simp [jeqs] at h
    | cons j' js' =>
      simp only [jeqs, Bool.and_eq_true] at h
      rw [eq_of_jeq j j' ht.1 h.1, eqs_of_jeqs js js' ht.2 h.2]
end

mutual
theorem jeq_forget [DecidableEq K] : ∀ a : SJoint K, NoNaN a.saveJ → jeq a.forget a = true
  | .plain k ix, _ => by simp [forget, jeq]
  | .axis k ix a, h => by
    rw [saveJ] at h; simp only [noNaN_append] at h
    simp [forget, jeq, same_refl h.2.2]
  | .helical _ _ _, _ => by simp [forget, jeq]
  | .helicalUnaligned ix a p, h => by
    rw [saveJ] at h; simp only [noNaN_append] at h
    simp [forget, jeq, same_refl h.2.1.2, same_refl h.2.2]
  | .universal ix a p, h => by
    rw [saveJ] at h; simp only [noNaN_append] at h
    simp [forget, jeq, same_refl h.2.1.2, same_refl h.2.2]
  | .composite ix t js ps, h => by
    rw [saveJ] at h; simp only [noNaN_append, noNaN_nat] at h
    simp [forget, jeq, same_refl h.2.2, jeqs_forgets js h.2.1.2]
  | .mimic _ _ _ _ _ _, _ => by simp [forget, jeq]
theorem jeqs_forgets [DecidableEq K] : ∀ a : List (SJoint K), NoNaN (saveJs a) → jeqs (forgets a) a = true
  | [], _ => by simp [forgets, jeqs]
  | j :: js, h => by
    rw [saveJs, noNaN_append] at h
    simp [forgets, jeqs, jeq_forget j h.1, jeqs_forgets js h.2]
end

mutual
theorem jeq_refl [DecidableEq K] : ∀ a : SJoint K, NoNaN a.saveJ → jeq a a = true
  | .plain k ix, _ => by simp [jeq]
  | .axis k ix a, h => by
    rw [saveJ] at h; simp only [noNaN_append] at h
    simp [jeq, same_refl h.2.2]
  | .helical _ _ _, _ => by simp [jeq]
  | .helicalUnaligned ix a p, h => by
    rw [saveJ] at h; simp only [noNaN_append] at h
    simp [jeq, same_refl h.2.1.2, same_refl h.2.2]
  | .universal ix a p, h => by
    rw [saveJ] at h; simp only [noNaN_append] at h
    simp [jeq, same_refl h.2.1.2, same_refl h.2.2]
  | .composite ix t js ps, h => by
    rw [saveJ] at h; simp only [noNaN_append, noNaN_nat] at h
    simp [jeq, same_refl h.2.2, jeqs_refl js h.2.1.2]
  | .mimic _ _ _ _ _ _, _ => by simp [jeq]
theorem jeqs_refl [DecidableEq K] : ∀ a : List (SJoint K), NoNaN (saveJs a) → jeqs a a = true
  | [], _ => by simp [jeqs]
  | j :: js, h => by
    rw [saveJs, noNaN_append] at h
    simp [jeqs, jeq_refl j h.1, jeqs_refl js h.2]
end

theorem forgets_eq_map (js : List (SJoint K)) : forgets js = js.map forget := by
  induction js with
  | nil => rfl
  | cons j js ih => rw [forgets, ih]; rfl

/-- the conversion of the parameters -/
theorem castV3_refl (v : V3 (Flt K)) : castV3 (Conv.refl K) v = v := rfl

theorem castSE3_refl : castSE3 (Conv.refl K) = id := rfl

mutual
theorem castJ_refl : ∀ j : SJoint K, j.hasMimic = false → castJ (Conv.refl K) j = some j
  | .plain k ix, _ => by simp [castJ]
  | .axis k ix a, _ => by simp [castJ, castV3_refl]
  | .helical _ _ _, _ => by simp [castJ, Conv.refl]
  | .helicalUnaligned ix a p, _ => by simp [castJ, castV3_refl]; rfl
  | .universal ix a p, _ => by simp [castJ, castV3_refl]
  | .composite ix t js ps, h => by
    rw [hasMimic] at h
    rw [castJ, castJs_refl js h, castSE3_refl, List.map_id]; rfl
  | .mimic _ _ _ _ _ _, h => by simp [hasMimic] at h
theorem castJs_refl : ∀ js : List (SJoint K), haveMimic js = false → castJs (Conv.refl K) js = some js
  | [], _ => by simp [castJs]
  | j :: js, h => by
    rw [haveMimic, Bool.or_eq_false_iff] at h
    rw [castJs, castJ_refl j h.1, castJs_refl js h.2]; rfl
end

end SJoint
end Pin
