import Verif.Model.MimicLemmas
import Verif.Model.ReduceDyn
import Verif.Model.ToSys

/-! # Motion and dynamics of a model in which a joint follows another one -/

set_option linter.unusedSectionVars false

namespace Pin
open Finset
variable {K : Type*} [CommRing K]

/-- `r` at `q'` moves as `s` at `q`, velocities being mapped by `E` -/
structure Sys.SameMotion (s r : Sys K) (q q' : ℕ → K) (E : (ℕ → K) → ℕ → K) : Prop where
  n : r.n = s.n
  par : r.par = s.par
  grav : r.grav = s.grav
  Y : r.Y = s.Y
  X : ∀ i, 1 ≤ i → i < s.n → r.X q' i = s.X q i
  jvel : ∀ i, 1 ≤ i → i < s.n → ∀ w, r.jvel q' w i = s.jvel q (E w) i
  cb : ∀ i, 1 ≤ i → i < s.n → ∀ w, r.cb q' w i = s.cb q (E w) i

namespace Sys.SameMotion
variable {s r : Sys K} {q q' : ℕ → K} {E : (ℕ → K) → ℕ → K}

theorem oM_eq (h : s.SameMotion r q q' E) (hp : ParOk s.par s.n) : ∀ i, i < s.n → r.oM q' i = s.oM q i := by
  intro i hi; refine s.joint_ind hp ?_ ?_ i hi <;> clear hi i
  · rw [Sys.oM_zero, Sys.oM_zero]
  · intro i h1 hi ih
    have := hp.2 i h1 hi
    rw [r.oM_step h1 (by rw [h.par]; exact this), s.oM_step h1 this, h.par, ih, h.X i h1 hi]

theorem V_eq (h : s.SameMotion r q q' E) (hp : ParOk s.par s.n) (w : ℕ → K) : ∀ i, i < s.n → r.V q' w i = s.V q (E w) i := by
  intro i hi; refine s.joint_ind hp ?_ ?_ i hi <;> clear hi i
  · rw [Sys.V_zero, Sys.V_zero]
  · intro i h1 hi ih
    have := hp.2 i h1 hi
    rw [r.V_step h1 (by rw [h.par]; exact this), s.V_step h1 this, h.par, ih, h.X i h1 hi, h.jvel i h1 hi]

theorem A_eq (h : s.SameMotion r q q' E) (hp : ParOk s.par s.n) (a0 : Motion K) (v a : ℕ → K) :
    ∀ i, i < s.n → r.A a0 q' v a i = s.A a0 q (E v) (E a) i := by
  intro i hi; refine s.joint_ind hp ?_ ?_ i hi <;> clear hi i
  · rw [Sys.A_zero, Sys.A_zero]
  · intro i h1 hi ih
    have := hp.2 i h1 hi
    rw [r.A_step h1 (by rw [h.par]; exact this), s.A_step h1 this, h.par, ih, h.X i h1 hi, h.jvel i h1 hi, h.jvel i h1 hi,
      h.cb i h1 hi, h.V_eq hp v i hi]

theorem F_eq (h : s.SameMotion r q q' E) (hp : ParOk s.par s.n) (a0 : Motion K) (v a : ℕ → K) :
    ∀ i, i < s.n → r.F a0 q' v a i = s.F a0 q (E v) (E a) i := by
  intro i hi
  unfold Sys.F
  rw [h.Y, h.A_eq hp a0 v a i hi, h.V_eq hp v i hi]

/-- the virtual powers of the two torques, armature apart, are the same -/
theorem rnea_eq (h : s.SameMotion r q q' E) (hs : s.WF) (hr : r.WF) (hq : s.At q) (hq' : r.At q') (d d' : Data K) (v a w : ℕ → K) :
    r.dotv w (fun k => (rnea r d' q' v a).tau k - r.arm k * a k)
      = s.dotv (E w) (fun k => (rnea s d q (E v) (E a)).tau k - s.arm k * E a k) := by
  have sub : ∀ (t : Sys K) (x y z : ℕ → K), t.dotv x (fun k => y k - z k) = t.dotv x y - t.dotv x z := by
    intro t x y z
    unfold Sys.dotv
    rw [← sum_sub_distrib]
    exact sum_congr rfl fun k _ => mul_sub _ _ _
  rw [sub, sub, rnea_power hr d' hq' v a w, rnea_power hs d hq (E v) (E a) (E w), add_sub_cancel_right, add_sub_cancel_right, h.n, h.grav]
  refine sum_congr rfl fun i hi => ?_
  have hi := (mem_Ico.1 hi).2
  rw [h.V_eq hs.par w i hi, h.F_eq hs.par _ v a i hi]

end Sys.SameMotion

/-! ## sums over the long vector -/

theorem sum_skip {N a n : ℕ} (h : a + n ≤ N) (f : ℕ → K) :
    ∑ x ∈ range N, f x = ∑ r ∈ range (N - n), f (skip a n r) + ∑ k ∈ range n, f (a + k) := by
  obtain ⟨b, rfl⟩ := Nat.exists_eq_add_of_le h
  rw [show a + n + b - n = a + b by omega, show a + n + b = a + (n + b) by omega, sum_range_add, sum_range_add, sum_range_add]
  have e1 : ∑ x ∈ range a, f (skip a n x) = ∑ x ∈ range a, f x :=
    sum_congr rfl fun x hx => by unfold skip; rw [if_pos (mem_range.1 hx)]
  have e2 : ∑ x ∈ range b, f (skip a n (a + x)) = ∑ x ∈ range b, f (a + (n + x)) :=
    sum_congr rfl fun x _ => by unfold skip; rw [if_neg (by omega)]; congr 1; omega
  rw [e1, e2]; ring

theorem insertAt_skip (a n : ℕ) (x w : ℕ → K) (r : ℕ) : insertAt a n x w (skip a n r) = w r := by
  unfold insertAt skip
  by_cases h : r < a
  · rw [if_pos h, if_pos h]
  · rw [if_neg h, if_neg (by omega), if_neg (by omega)]; congr 1; omega

theorem insertAt_mid {a n k : ℕ} (x w : ℕ → K) (h : k < n) : insertAt a n x w (a + k) = x k := by
  unfold insertAt
  rw [if_neg (by omega), if_pos (by omega)]; congr 1; omega

theorem sum_unit_le (N r : ℕ) (h : r < N) (f : ℕ → K) : ∑ k ∈ range N, Sys.unit r k * f k = f r := by
  unfold Sys.unit
  rw [sum_eq_single r]
  · rw [if_pos rfl, one_mul]
  · intro b _ hb; rw [if_neg hb, zero_mul]
  · intro hc; exact absurd (mem_range.2 h) hc

theorem sum_unit_shift (n r b : ℕ) (c : K) (f : ℕ → K) :
    ∑ k ∈ range n, c * Sys.unit r (b + k) * f k = if b ≤ r ∧ r < b + n then c * f (r - b) else 0 := by
  unfold Sys.unit
  split
  · rename_i h
    rw [sum_eq_single (r - b)]
    · rw [if_pos (by omega), mul_one]
    · intro k _ hk; rw [if_neg (by omega), mul_zero, zero_mul]
    · intro hc; exact absurd (mem_range.2 (by omega)) hc
  · rename_i h
    refine sum_eq_zero fun k hk => ?_
    have := mem_range.1 hk
    rw [if_neg (by omega), mul_zero, zero_mul]

/-- what a unit velocity of the short vector pairs with -/
theorem sum_insert_unit {N a n r : ℕ} (b : ℕ) (h : a + n ≤ N) (hr : r < N - n) (c : K) (t : ℕ → K) :
    ∑ x ∈ range N, insertAt a n (fun k => c * Sys.unit r (b + k)) (Sys.unit r) x * t x
      = t (skip a n r) + if b ≤ r ∧ r < b + n then c * t (a + (r - b)) else 0 := by
  rw [sum_skip h, ← sum_unit_shift n r b c (fun k => t (a + k))]
  congr 1
  · simp only [insertAt_skip]; exact sum_unit_le _ r hr (fun x => t (skip a n x))
  · exact sum_congr rfl fun k hk => by rw [insertAt_mid _ _ (mem_range.1 hk)]

namespace Model
namespace MSetup
variable {F : Type*} [Field F] [LinearOrder F] [HasEps F] {m : Model F (Joint F)} {i j : ℕ} {ei ej : JEntry (Joint F)}

/-- the joint whose indexes joint `k ≠ j` has -/
theorem target (h : MSetup m i j ei ej) (hs : m.SizesOk) {k : ℕ} {e : JEntry (Joint F)} (h1 : 1 ≤ k) (hk : k ≠ j)
    (he : m.joints[k]? = some e) : ftgt k e ≠ j ∧ 1 ≤ ftgt k e ∧ ∃ p, m.joints[ftgt k e]? = some p ∧ p.desc.mimic = none ∧ e.idx_q = p.idx_q ∧
      e.idx_v = p.idx_v ∧ e.desc.payload.nq = p.desc.nq ∧ e.desc.payload.nv = p.desc.nv ∧
      (moved j ej k e).idx_q = (moved j ej (ftgt k e) p).idx_q ∧ (moved j ej k e).idx_v = (moved j ej (ftgt k e) p).idx_v := by
  obtain ⟨s1, s2⟩ := hs k e h1 he
  cases hm : e.desc.mimic with
  | none =>
    have t : ftgt k e = k := by unfold ftgt; rw [hm]
    rw [t]
    obtain ⟨a, b⟩ := s1 hm
    exact ⟨hk, h1, e, he, hm, rfl, rfl, a, b, rfl, rfl⟩
  | some x =>
    obtain ⟨mid, mq, mv⟩ := x
    obtain ⟨-, -, -, -, m1, m2, m3, p, hp, pm, q, v⟩ := h.fol k e mid mq mv he hm
    obtain ⟨p', hp', a, b⟩ := s2 mid mq mv hm
    rw [hp] at hp'; cases hp'
    have t : ftgt k e = mid := by unfold ftgt; rw [hm]
    have tp : ftgt mid p = mid := by unfold ftgt; rw [pm]
    rw [t]
    refine ⟨m3, m1, p, hp, pm, q, v, a, b, ?_, ?_⟩ <;> simp only [moved, t, tp, q, v]

/-- the coordinates and the velocities of joint `k ≠ j` -/
theorem seg_insert (h : MSetup m i j ei ej) (hs : m.SizesOk) {k : ℕ} {e : JEntry (Joint F)} (h1 : 1 ≤ k) (hk : k ≠ j)
    (he : m.joints[k]? = some e) (x w : ℕ → F) :
    (∀ l < e.desc.payload.nq, insertAt ej.idx_q ej.desc.nq x w (e.idx_q + l) = w ((moved j ej k e).idx_q + l)) ∧
    (∀ l < e.desc.payload.nv, insertAt ej.idx_v ej.desc.nv x w (e.idx_v + l) = w ((moved j ej k e).idx_v + l)) := by
  obtain ⟨t1, -, p, hp, pm, q, v, a, b, mq, mv⟩ := h.target hs h1 hk he
  obtain ⟨sq, sv⟩ := h.seg_ok hp t1
  constructor
  · intro l hl
    rw [a] at hl
    rw [mq, q]
    obtain ⟨e1, e2⟩ := sq.resolve_left (by omega)
    rw [e1]
    unfold insertAt
    rcases e2 with ⟨e2, e3⟩ | ⟨e2, e3⟩
    · rw [if_pos (by omega), e3]
    · rw [if_neg (by omega), if_neg (by omega)]; congr 1; omega
  · intro l hl
    rw [b] at hl
    rw [mv, v]
    obtain ⟨e1, e2⟩ := sv.resolve_left (by omega)
    rw [e1]
    unfold insertAt
    rcases e2 with ⟨e2, e3⟩ | ⟨e2, e3⟩
    · rw [if_pos (by omega), e3]
    · rw [if_neg (by omega), if_neg (by omega)]; congr 1; omega

variable {S0 : ℕ → Motion F} {aff : F → F → (ℕ → F) → ℕ → F} {sc off : F}

theorem sys_other (h : MSetup m i j ei ej) (j0 : Joint F) (g : Motion F) {J : Joint F} {k : ℕ} {e : JEntry (Joint F)} (hk : k ≠ j)
    (he : m.joints[k]? = some e) :
    (m.toSys j0 g).jt k = e.desc.payload ∧ (m.toSys j0 g).iq k = e.idx_q ∧ (m.toSys j0 g).iv k = e.idx_v ∧
    ((result m i j ei ej J).toSys j0 g).jt k = e.desc.payload ∧ ((result m i j ei ej J).toSys j0 g).iq k = (moved j ej k e).idx_q ∧
    ((result m i j ei ej J).toSys j0 g).iv k = (moved j ej k e).idx_v := by
  have hr : (result m i j ei ej J).joints[k]? = some (moved j ej k e) := h.new_get he hk
  unfold toSys
  simp only [he, hr, Option.map_some, Option.getD_some]
  exact ⟨trivial, trivial, trivial, rfl, trivial, trivial⟩

theorem sys_new (h : MSetup m i j ei ej) (j0 : Joint F) (g : Motion F) {J : Joint F} :
    (m.toSys j0 g).jt j = ej.desc.payload ∧ (m.toSys j0 g).iq j = ej.idx_q ∧ (m.toSys j0 g).iv j = ej.idx_v ∧
    ((result m i j ei ej J).toSys j0 g).jt j = J ∧ ((result m i j ei ej J).toSys j0 g).iq j = ei.idx_q ∧
    ((result m i j ei ej J).toSys j0 g).iv j = ei.idx_v := by
  have hr : (result m i j ei ej J).joints[j]? = some (newJoint i j ei ej J) := h.new_get_j
  unfold toSys
  simp only [h.hj, hr, Option.map_some, Option.getD_some]
  exact ⟨trivial, trivial, trivial, rfl, rfl, rfl⟩

theorem sameMotion (h : MSetup m i j ei ej) (hs : m.SizesOk) (j0 : Joint F) (g : Motion F)
    (hl : ∀ k, 1 ≤ k → k < m.njoints → ((m.toSys j0 g).jt k).Local)
    (hS : ∀ x : ℕ → F, ∀ k < ej.desc.nv, ej.desc.payload.S x k = S0 k) (q' : ℕ → F) :
    (m.toSys j0 g).SameMotion ((result m i j ei ej (jMimic ej.desc.payload S0 aff sc off)).toSys j0 g)
      (insertAt ej.idx_q ej.desc.nq (aff sc off (seg q' ei.idx_q)) q') q'
      (fun w => insertAt ej.idx_v ej.desc.nv (fun k => sc * w (ei.idx_v + k)) w) := by
  have jl := h.jl
  have j1 : 1 ≤ j := by have := h.ij; omega
  obtain ⟨n1, n2, n3, n4, n5, n6⟩ := h.sys_new j0 g (J := jMimic ej.desc.payload S0 aff sc off)
  obtain ⟨z1, z2⟩ := (hs j ej j1 h.hj).1 h.mj
  have locj : ej.desc.payload.Local := by have := hl j j1 h.jn; rwa [n1] at this
  have get : ∀ k, k < (m.toSys j0 g).n → ∃ e, m.joints[k]? = some e := by
    intro k hk
    have : k < m.njoints := hk
    exact ⟨_, List.getElem?_eq_getElem (by omega)⟩
  have cq : ∀ k < ej.desc.payload.nq, seg (insertAt ej.idx_q ej.desc.nq (aff sc off (seg q' ei.idx_q)) q') ej.idx_q k
      = aff sc off (seg q' ei.idx_q) k := by
    intro k hk; exact insertAt_mid _ _ (by omega)
  have cv : ∀ (w : ℕ → F), ∀ k < ej.desc.payload.nv, seg (insertAt ej.idx_v ej.desc.nv (fun k => sc * w (ei.idx_v + k)) w) ej.idx_v k
      = sc * seg w ei.idx_v k := by
    intro w k hk; exact insertAt_mid _ _ (by omega)
  refine ⟨rfl, rfl, rfl, rfl, ?_, ?_, ?_⟩
  · intro k h1 hk
    obtain ⟨e, he⟩ := get k hk
    have hpl : ((result m i j ei ej (jMimic ej.desc.payload S0 aff sc off)).toSys j0 g).pl k = (m.toSys j0 g).pl k := rfl
    unfold Sys.X Sys.qs
    rw [hpl]
    congr 1
    by_cases hkj : k = j
    · subst hkj
      rw [n1, n2, n4, n5]
      exact locj.M _ _ fun l hl => (cq l hl).symm
    · obtain ⟨o1, o2, o3, o4, o5, o6⟩ := h.sys_other j0 g (J := jMimic ej.desc.payload S0 aff sc off) hkj he
      have loc : e.desc.payload.Local := by have := hl k h1 hk; rwa [o1] at this
      rw [o1, o2, o4, o5]
      exact loc.M _ _ fun l hl => ((h.seg_insert hs h1 hkj he _ _).1 l hl).symm
  · intro k h1 hk w
    obtain ⟨e, he⟩ := get k hk
    unfold Sys.jvel Sys.S Sys.vs Sys.qs Sys.jnv
    by_cases hkj : k = j
    · subst hkj
      rw [n1, n2, n3, n4, n5, n6]
      unfold comb
      refine sum_congr rfl fun l hl => ?_
      have hl' : l < ej.desc.payload.nv := mem_range.1 hl
      rw [cv w l hl']
      change seg w ei.idx_v l • sc • S0 l = _
      rw [hS _ l (by omega), smul_smul, mul_comm]
    · obtain ⟨o1, o2, o3, o4, o5, o6⟩ := h.sys_other j0 g (J := jMimic ej.desc.payload S0 aff sc off) hkj he
      have loc : e.desc.payload.Local := by have := hl k h1 hk; rwa [o1] at this
      rw [o1, o2, o3, o4, o5, o6]
      refine comb_congr (fun l _ => ?_) (fun l hl => ((h.seg_insert hs h1 hkj he _ _).2 l hl).symm)
      exact congrFun (loc.S _ _ fun l hl => ((h.seg_insert hs h1 hkj he _ _).1 l hl).symm) l
  · intro k h1 hk w
    obtain ⟨e, he⟩ := get k hk
    unfold Sys.cb Sys.vs Sys.qs
    by_cases hkj : k = j
    · subst hkj
      rw [n1, n2, n3, n4, n5, n6]
      exact locj.c _ _ _ _ (fun l hl => (cq l hl).symm) (fun l hl => (cv w l hl).symm)
    · obtain ⟨o1, o2, o3, o4, o5, o6⟩ := h.sys_other j0 g (J := jMimic ej.desc.payload S0 aff sc off) hkj he
      have loc : e.desc.payload.Local := by have := hl k h1 hk; rwa [o1] at this
      rw [o1, o2, o3, o4, o5, o6]
      exact loc.c _ _ _ _ (fun l hl => ((h.seg_insert hs h1 hkj he _ _).1 l hl).symm)
        (fun l hl => ((h.seg_insert hs h1 hkj he _ _).2 l hl).symm)

/-- the new joint is lawful where the old one is -/
theorem at_of (h : MSetup m i j ei ej) (hs : m.SizesOk) (j0 : Joint F) (g : Motion F)
    (hl : ∀ k, 1 ≤ k → k < m.njoints → ((m.toSys j0 g).jt k).Local)
    (hS : ∀ x : ℕ → F, ∀ k < ej.desc.nv, ej.desc.payload.S x k = S0 k) {q' : ℕ → F}
    (hq : (m.toSys j0 g).At (insertAt ej.idx_q ej.desc.nq (aff sc off (seg q' ei.idx_q)) q')) :
    ((result m i j ei ej (jMimic ej.desc.payload S0 aff sc off)).toSys j0 g).At q' := by
  have jl := h.jl
  have j1 : 1 ≤ j := by have := h.ij; omega
  obtain ⟨n1, n2, n3, n4, n5, n6⟩ := h.sys_new j0 g (J := jMimic ej.desc.payload S0 aff sc off)
  obtain ⟨z1, z2⟩ := (hs j ej j1 h.hj).1 h.mj
  have locj : ej.desc.payload.Local := by have := hl j j1 h.jn; rwa [n1] at this
  refine ⟨fun k h1 hk => hq.pl k h1 hk, fun k h1 hk => ?_⟩
  have hkn : k < m.njoints := hk
  obtain ⟨e, he⟩ : ∃ e, m.joints[k]? = some e := ⟨_, List.getElem?_eq_getElem (by omega)⟩
  have ok := hq.jt k h1 hk
  unfold Sys.qs at ok ⊢
  by_cases hkj : k = j
  · subst hkj
    rw [n1, n2] at ok
    rw [n4, n5]
    have ok2 : ej.desc.payload.Ok (aff sc off (seg q' ei.idx_q)) := locj.ok ok fun l hl => insertAt_mid _ _ (by omega)
    refine ⟨ok2.valid, fun w => ?_⟩
    change ej.desc.payload.v (aff sc off (seg q' ei.idx_q)) (fun k => sc * w k) = comb (fun k => sc • S0 k) ej.desc.payload.nv w
    rw [ok2.vel]
    unfold comb
    refine sum_congr rfl fun l hl => ?_
    rw [hS _ l (by have := mem_range.1 hl; omega), smul_smul, mul_comm]
  · obtain ⟨o1, o2, o3, o4, o5, o6⟩ := h.sys_other j0 g (J := jMimic ej.desc.payload S0 aff sc off) hkj he
    have loc : e.desc.payload.Local := by have := hl k h1 hk; rwa [o1] at this
    rw [o1, o2] at ok
    rw [o4, o5]
    exact loc.ok ok fun l hl => (h.seg_insert hs h1 hkj he _ _).1 l hl

theorem wf_in (h : MSetup m i j ei ej) (hs : m.SizesOk) (j0 : Joint F) (g : Motion F) : (m.toSys j0 g).WF := by
  have jl := h.jl
  refine ⟨toSys_parOk h.inv j0 g, fun k h1 hk => ?_⟩
  have hkn : k < m.njoints := hk
  have j1 : 1 ≤ j := by have := h.ij; omega
  obtain ⟨e, he⟩ : ∃ e, m.joints[k]? = some e := ⟨_, List.getElem?_eq_getElem (by omega)⟩
  unfold Sys.jnv
  by_cases hkj : k = j
  · subst hkj
    obtain ⟨n1, n2, n3, -⟩ := h.sys_new j0 g (J := j0)
    obtain ⟨z1, z2⟩ := (hs k ej j1 h.hj).1 h.mj
    rw [n1, n3, z2]
    exact h.lej.2
  · obtain ⟨o1, o2, o3, -⟩ := h.sys_other j0 g (J := j0) hkj he
    obtain ⟨t1, t2, p, hp, pm, -, v, -, b, -⟩ := h.target hs h1 hkj he
    rw [o1, o3, v, b]
    exact seg_le h.inv (h.lt_of_get hp) hp pm

theorem wf_out (h : MSetup m i j ei ej) (hs : m.SizesOk) (hn : ei.desc.nv = ej.desc.nv) (j0 : Joint F) (g : Motion F) :
    ((result m i j ei ej (jMimic ej.desc.payload S0 aff sc off)).toSys j0 g).WF := by
  have jl := h.jl
  have hij := h.ij
  have I := h.res_inv (J := jMimic ej.desc.payload S0 aff sc off)
  refine ⟨toSys_parOk I j0 g, fun k h1 hk => ?_⟩
  have hkn : k < m.njoints := hk
  have j1 : 1 ≤ j := by omega
  obtain ⟨e, he⟩ : ∃ e, m.joints[k]? = some e := ⟨_, List.getElem?_eq_getElem (by omega)⟩
  unfold Sys.jnv
  by_cases hkj : k = j
  · subst hkj
    obtain ⟨-, -, -, n4, n5, n6⟩ := h.sys_new j0 g (J := jMimic ej.desc.payload S0 aff sc off)
    obtain ⟨z1, z2⟩ := (hs k ej j1 h.hj).1 h.mj
    rw [n4, n6]
    change ei.idx_v + ej.desc.payload.nv ≤ _
    rw [z2, ← hn]
    exact seg_le I (show i < m.njoints by omega) h.res_i h.mi
  · obtain ⟨-, -, -, o4, o5, o6⟩ := h.sys_other j0 g (J := jMimic ej.desc.payload S0 aff sc off) hkj he
    obtain ⟨t1, t2, p, hp, pm, -, -, -, b, -, mv⟩ := h.target hs h1 hkj he
    rw [o4, o6, mv, b]
    refine seg_le I (e := moved j ej (ftgt k e) p) (h.lt_of_get hp) (h.new_get hp t1) ?_
    change p.desc.mimic.map _ = none
    rw [pm]; rfl

theorem arm_out (h : MSetup m i j ei ej) {J : Joint F} (j0 : Joint F) (g : Motion F) (r : ℕ) :
    ((result m i j ei ej J).toSys j0 g).arm r = (m.toSys j0 g).arm (skip ej.idx_v ej.desc.nv r) := by
  have l := h.inv.lens
  obtain ⟨jq, jv⟩ := h.lej
  change (Pin.cut m.armature ej.idx_v ej.desc.nv).getD r 0 = m.armature.getD (skip ej.idx_v ej.desc.nv r) 0
  unfold Pin.cut skip
  rw [List.getD_eq_getElem?_getD, List.getD_eq_getElem?_getD]
  have la := l.armature
  split
  · rename_i hr
    rw [List.getElem?_append_left (by rw [List.length_take]; omega), List.getElem?_take_of_lt hr]
  · rename_i hr
    rw [List.getElem?_append_right (by rw [List.length_take]; omega), List.getElem?_drop, List.length_take]
    congr 2; omega

end MSetup
end Model
end Pin
