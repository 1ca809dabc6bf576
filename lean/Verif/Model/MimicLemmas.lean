import Verif.Model.Mimic
import Verif.Spec.Mimic
import Verif.Model.ReduceLemmas

/-! # Closed form of `transformJointIntoMimic` -/

set_option linter.unusedSectionVars false
set_option linter.unusedSimpArgs false

namespace Pin
variable {K P : Type*}

/-! ## lists -/

/-- the first `k` elements of `A`, then those of `B` -/
def splice {α : Type*} (A B : List α) (k : ℕ) : List α := A.take k ++ B.drop k

theorem splice_get {α : Type*} {A B : List α} (h : A.length = B.length) (k l : ℕ) (hk : k ≤ A.length) :
    (splice A B k)[l]? = if l < k then A[l]? else B[l]? := by
  unfold splice
  split
  · rename_i hl
    rw [List.getElem?_append_left (by rw [List.length_take]; omega), List.getElem?_take_of_lt hl]
  · rename_i hl
    rw [List.getElem?_append_right (by rw [List.length_take]; omega), List.length_take, min_eq_left hk, List.getElem?_drop]
    congr 1; omega

theorem splice_set {α : Type*} {A B : List α} (h : A.length = B.length) {k : ℕ} {x : α} (hx : A[k]? = some x) :
    (splice A B k).set k x = splice A B (k + 1) := by
  have hk : k < A.length := by
    by_contra hc; rw [List.getElem?_eq_none (by omega)] at hx; cases hx
  apply List.ext_getElem?
  intro l
  rw [List.getElem?_set, splice_get h (k + 1) l (by omega), splice_get h k l (by omega)]
  have hlen : (splice A B k).length = A.length := by
    unfold splice; rw [List.length_append, List.length_take, List.length_drop]; omega
  rw [hlen]
  by_cases e : k = l
  · subst e; rw [if_pos rfl, if_pos hk, if_pos (by omega), hx]
  · rw [if_neg e]
    by_cases h2 : l < k
    · rw [if_pos h2, if_pos (by omega)]
    · rw [if_neg h2, if_neg (by omega)]

theorem splice_full {α : Type*} {A B : List α} (h : A.length = B.length) : splice A B A.length = A := by
  unfold splice
  rw [List.take_length, List.drop_eq_nil_of_le (by omega), List.append_nil]

/-- `l` without the `n` elements from position `i` on -/
def cut (l : List K) (i n : ℕ) : List K := l.take i ++ l.drop (i + n)

theorem cut_length {l : List K} {i n : ℕ} (h : i + n ≤ l.length) : (cut l i n).length = l.length - n := by
  unfold cut; rw [List.length_append, List.length_take, List.length_drop]; omega

theorem cut_before {l : List K} {i n a c : ℕ} (h : a + c ≤ i) (hi : i ≤ l.length) :
    ((cut l i n).drop a).take c = (l.drop a).take c := by
  unfold cut
  rw [List.drop_append_of_le_length (by rw [List.length_take]; omega),
    List.take_append_of_le_length (by rw [List.length_drop, List.length_take]; omega), List.drop_take, List.take_take]
  congr 1; omega

theorem cut_after {l : List K} {i n a : ℕ} (h : i + n ≤ a) (hi : i ≤ l.length) : (cut l i n).drop (a - n) = l.drop a := by
  unfold cut
  rw [List.drop_append, List.drop_eq_nil_of_le (by rw [List.length_take]; omega), List.nil_append, List.length_take,
    min_eq_left hi, List.drop_drop]
  congr 1; omega

theorem setSeg_nil (l : List K) (i : ℕ) : setSeg l i [] = l := by
  unfold setSeg; rw [List.append_nil, List.length_nil, Nat.add_zero, List.take_append_drop]

theorem setSeg_length' {l x : List K} {i : ℕ} (h : i + x.length ≤ l.length) : (setSeg l i x).length = l.length := by
  unfold setSeg; rw [List.length_append, List.length_append, List.length_take, List.length_drop]; omega

/-- writing the next segment of `C` behind a prefix of `C` -/
theorem setSeg_prefix {l C : List K} {p n : ℕ} (hl : l.length = C.length) (h : l.take p = C.take p) (hp : p + n ≤ C.length) :
    (setSeg l p ((C.drop p).take n)).length = C.length ∧ (setSeg l p ((C.drop p).take n)).take (p + n) = C.take (p + n) := by
  have hx : ((C.drop p).take n).length = n := by rw [List.length_take, List.length_drop]; omega
  refine ⟨by rw [setSeg_length' (by omega), hl], ?_⟩
  have hl2 : (C.take p ++ (C.drop p).take n).length = p + n := by
    rw [List.length_append, List.length_take, hx]; omega
  unfold setSeg
  rw [h, List.take_append_of_le_length (le_of_eq hl2.symm), List.take_of_length_le (le_of_eq hl2), List.take_add]

theorem sum_take_set (l : List ℕ) {j k x : ℕ} (hx : l[j]? = some x) :
    ((l.set j 0).take k).sum + (if j < k then x else 0) = (l.take k).sum := by
  induction l generalizing j k with
  | nil => simp at hx
  | cons a l ih =>
    cases k with
    | zero => simp
    | succ k =>
      cases j with
      | zero =>
        simp only [List.getElem?_cons_zero, Option.some.injEq] at hx
        subst hx
        simp; omega
      | succ j =>
        simp only [List.getElem?_cons_succ] at hx
        have := ih (k := k) hx
        simp only [List.set_cons_succ, List.take_succ_cons, List.sum_cons, Nat.add_lt_add_iff_right]
        omega

theorem mem_insertSort (x : ℕ) (l : List ℕ) (k : ℕ) : k ∈ Model.insertSort x l ↔ k = x ∨ k ∈ l := by
  unfold Model.insertSort
  conv_rhs => rw [← List.takeWhile_append_dropWhile (p := (· < x)) (l := l)]
  simp only [List.mem_append, List.mem_cons]
  tauto

theorem foldl_modify {α : Type*} (f : α → α) (d : α) : ∀ (t : List ℕ) (l : List α), t.Nodup → ∀ k < l.length,
    (t.foldl (fun l k => l.modify k f) l).getD k d = if k ∈ t then f (l.getD k d) else l.getD k d := by
  intro t
  induction t with
  | nil => intro l _ k _; simp
  | cons a t ih =>
    intro l hn k hk
    rw [List.nodup_cons] at hn
    rw [List.foldl_cons, ih _ hn.2 k (by rw [List.length_modify]; exact hk), Model.getD_modify _ _ _ _ _ hk]
    by_cases e : a = k
    · subst e; rw [if_neg hn.1, if_pos rfl, if_pos List.mem_cons_self]
    · have : (k ∈ a :: t) ↔ k ∈ t := by
        rw [List.mem_cons]
        exact ⟨fun h => h.resolve_left (Ne.symm e), Or.inr⟩
      simp only [if_neg e, this]

namespace Model
variable [Field K] [LinearOrder K] [HasEps K]

/-! ## the parameters -/

/-- the parameters of `m` -/
def params (m : Model K P) : Params K :=
  ⟨m.armature, m.rotorInertia, m.rotorGearRatio, m.friction, m.damping, m.effortLimit, m.velocityLimit, m.lowerPositionLimit,
    m.upperPositionLimit⟩

/-- without the segments of one joint -/
def Params.cut (p : Params K) (iq nq iv nv : ℕ) : Params K :=
  ⟨Pin.cut p.armature iv nv, Pin.cut p.rotorInertia iv nv, Pin.cut p.rotorGearRatio iv nv, Pin.cut p.friction iv nv,
    Pin.cut p.damping iv nv, Pin.cut p.effortLimit iv nv, Pin.cut p.velocityLimit iv nv, Pin.cut p.lowerPositionLimit iq nq,
    Pin.cut p.upperPositionLimit iq nq⟩

/-- `l` has the length of `C` and its first `p` elements -/
def Pre (C l : List K) (p : ℕ) : Prop := l.length = C.length ∧ l.take p = C.take p

/-- the parameters are those of `C` on the first `a` coordinates and the first `b` velocities -/
structure Params.Pre (C p : Params K) (a b : ℕ) : Prop where
  armature : Model.Pre C.armature p.armature b
  rotorInertia : Model.Pre C.rotorInertia p.rotorInertia b
  rotorGearRatio : Model.Pre C.rotorGearRatio p.rotorGearRatio b
  friction : Model.Pre C.friction p.friction b
  damping : Model.Pre C.damping p.damping b
  effortLimit : Model.Pre C.effortLimit p.effortLimit b
  velocityLimit : Model.Pre C.velocityLimit p.velocityLimit b
  lowerPositionLimit : Model.Pre C.lowerPositionLimit p.lowerPositionLimit a
  upperPositionLimit : Model.Pre C.upperPositionLimit p.upperPositionLimit a

theorem Pre.full {C l : List K} {p : ℕ} (h : Pre C l p) (hp : C.length ≤ p) : l = C := by
  have := h.2
  rwa [List.take_of_length_le (by rw [h.1]; exact hp), List.take_of_length_le hp] at this

/-- the segment of one joint is written; `i, n` is the segment of the new joint, whose parameters are cut out -/
theorem Pre.step {L l : List K} {i n p c a ia : ℕ} (h : Pre (Pin.cut L i n) l p) (hi : i + n ≤ L.length) (ha : a + c ≤ L.length)
    (hz : c = 0 ∨ (ia = p ∧ ((a + c ≤ i ∧ p = a) ∨ (i + n ≤ a ∧ p + n = a)))) :
    Pre (Pin.cut L i n) (setSeg l ia ((L.drop a).take c)) (p + c) := by
  rcases hz with rfl | ⟨rfl, hz⟩
  · rw [List.take_zero, setSeg_nil]; exact h
  · have hc := cut_length hi
    have e : (L.drop a).take c = ((Pin.cut L i n).drop ia).take c := by
      rcases hz with ⟨h1, h2⟩ | ⟨h1, h2⟩
      · rw [h2, cut_before h1 (by omega)]
      · rw [show ia = a - n by omega, cut_after h1 (by omega)]
    rw [e]
    exact setSeg_prefix h.1 h.2 (by rw [hc]; omega)

/-- what the copies of one joint do to the parameters -/
def Params.copy (q : Params K) (ei eo : JEntry P) (p : Params K) : Params K where
  effortLimit := setSeg p.effortLimit eo.idx_v (selV ei q.effortLimit)
  velocityLimit := setSeg p.velocityLimit eo.idx_v (selV ei q.velocityLimit)
  lowerPositionLimit := setSeg p.lowerPositionLimit eo.idx_q (selQ ei q.lowerPositionLimit)
  upperPositionLimit := setSeg p.upperPositionLimit eo.idx_q (selQ ei q.upperPositionLimit)
  armature := setSeg p.armature eo.idx_v (selV ei q.armature)
  rotorInertia := setSeg p.rotorInertia eo.idx_v (selV ei q.rotorInertia)
  rotorGearRatio := setSeg p.rotorGearRatio eo.idx_v (selV ei q.rotorGearRatio)
  friction := setSeg p.friction eo.idx_v (selV ei q.friction)
  damping := setSeg p.damping eo.idx_v (selV ei q.damping)

theorem copyParams_eq (inp m : Model K P) (ei eo : JEntry P) (p : Params K) :
    copyParams inp ei eo (m.setParams p) = m.setParams (inp.params.copy ei eo p) := rfl

/-- the situation: joint `j` of `m` follows joint `i` -/
structure MSetup (m : Model K P) (i j : ℕ) (ei ej : JEntry P) : Prop where
  inv : Inv m
  i1 : 1 ≤ i
  ij : i < j
  jn : j < m.njoints
  hi : m.joints[i]? = some ei
  hj : m.joints[j]? = some ej
  mi : ei.desc.mimic = none
  mj : ej.desc.mimic = none
  fol : m.FollowsOk j

variable {m : Model K P} {i j : ℕ} {ei ej : JEntry P} {J : P}

/-- the joint whose indexes joint `k` has -/
def ftgt (k : ℕ) (e : JEntry P) : ℕ := match e.desc.mimic with
  | none => k
  | some x => x.1

/-- an index of joint `k` after the removal of `n` coordinates at joint `j` -/
def sh (j : ℕ) (n t x : ℕ) : ℕ := if t < j then x else x - n

/-- joint `k ≠ j` after the call -/
def moved (j : ℕ) (ej : JEntry P) (k : ℕ) (e : JEntry P) : JEntry P :=
  let q := sh j ej.desc.nq (ftgt k e) e.idx_q
  let v := sh j ej.desc.nv (ftgt k e) e.idx_v
  ⟨{ e.desc with mimic := e.desc.mimic.map fun x => (x.1, q, v) }, e.id, q, v, e.idx_vx⟩

/-- joint `j` after the call -/
def newJoint (i j : ℕ) (ei ej : JEntry P) (J : P) : JEntry P :=
  ⟨⟨J, 0, 0, ej.desc.nvx, some (i, ei.idx_q, ei.idx_v)⟩, j, ei.idx_q, ei.idx_v, ej.idx_vx⟩

/-- the joints after the call -/
def newJoints (m : Model K P) (i j : ℕ) (ei ej : JEntry P) (J : P) : List (JEntry P) :=
  m.joints.mapIdx fun k e => if k = j then newJoint i j ei ej J else moved j ej k e

theorem newJoints_get (k : ℕ) : (newJoints m i j ei ej J)[k]?
    = m.joints[k]?.map fun e => if k = j then newJoint i j ei ej J else moved j ej k e := by
  unfold newJoints; rw [List.getElem?_mapIdx]

theorem newJoints_length : (newJoints m i j ei ej J).length = m.joints.length := by
  unfold newJoints; rw [List.length_mapIdx]

/-- the model after the call, for given parameters, up to joint `k` of the second loop -/
def skel (m : Model K P) (i j : ℕ) (ei ej : JEntry P) (J : P) (k : ℕ) : Model K P :=
  let N := newJoints m i j ei ej J
  { m with
    joints := splice N
      (m.joints.set j ⟨⟨J, 0, 0, ej.desc.nvx, some (ei.id, ei.idx_q, ei.idx_v)⟩, 0, ei.idx_q, ei.idx_v, 0⟩) k
    nq := m.nq - ej.desc.nq
    nv := m.nv - ej.desc.nv
    idx_qs := splice (N.map (·.idx_q)) m.idx_qs k
    nqs := splice (N.map (·.desc.nq)) m.nqs k
    idx_vs := splice (N.map (·.idx_v)) m.idx_vs k
    nvs := splice (N.map (·.desc.nv)) m.nvs k }

namespace MSetup

theorem jl (h : MSetup m i j ei ej) : m.joints.length = m.njoints := h.inv.lens.joints

theorem lt_of_get (h : MSetup m i j ei ej) {k : ℕ} {e : JEntry P} (he : m.joints[k]? = some e) : k < m.njoints := by
  rw [← h.jl]
  by_contra hc; rw [List.getElem?_eq_none (by omega)] at he; cases he

theorem idxj (h : MSetup m i j ei ej) : ej.idx_q = (m.nqs.take j).sum ∧ ej.idx_v = (m.nvs.take j).sum :=
  (h.inv.ent j ej h.hj).2.2.2.2.2.2.2 h.mj

theorem nqj (h : MSetup m i j ei ej) : m.nqs[j]? = some ej.desc.nq := (h.inv.ent j ej h.hj).2.2.2.2.1
theorem nvj (h : MSetup m i j ei ej) : m.nvs[j]? = some ej.desc.nv := (h.inv.ent j ej h.hj).2.2.2.2.2.1

end MSetup

theorem sum_take_mono (l : List ℕ) {a b : ℕ} (h : a ≤ b) : (l.take a).sum ≤ (l.take b).sum := by
  rw [← List.take_append_drop a (l.take b), List.take_take, min_eq_left h, List.sum_append]; omega

theorem sum_take_add (l : List ℕ) {k x : ℕ} (h : l[k]? = some x) : (l.take (k + 1)).sum = (l.take k).sum + x := by
  have hk : k < l.length := by by_contra hc; rw [List.getElem?_eq_none (by omega)] at h; cases h
  rw [List.take_succ_eq_append_getElem hk, List.sum_append, List.sum_singleton]
  rw [List.getElem?_eq_getElem hk] at h; cases h; rfl

theorem sum_take_full (l : List ℕ) (k : ℕ) : (l.take k).sum ≤ l.sum := by
  conv_rhs => rw [← List.take_append_drop k l, List.sum_append]
  omega

/-- the number of coordinates of the joints below `k` after the call -/
def pq (m : Model K P) (j k : ℕ) : ℕ := ((m.nqs.set j 0).take k).sum
/-- the number of velocities of the joints below `k` after the call -/
def pv (m : Model K P) (j k : ℕ) : ℕ := ((m.nvs.set j 0).take k).sum

namespace MSetup

theorem pq_eq (h : MSetup m i j ei ej) (k : ℕ) : pq m j k + (if j < k then ej.desc.nq else 0) = (m.nqs.take k).sum :=
  sum_take_set _ h.nqj
theorem pv_eq (h : MSetup m i j ei ej) (k : ℕ) : pv m j k + (if j < k then ej.desc.nv else 0) = (m.nvs.take k).sum :=
  sum_take_set _ h.nvj

theorem lej (h : MSetup m i j ei ej) : ej.idx_q + ej.desc.nq ≤ m.nq ∧ ej.idx_v + ej.desc.nv ≤ m.nv := by
  obtain ⟨e1, e2⟩ := h.idxj
  rw [e1, e2, ← sum_take_add _ h.nqj, ← sum_take_add _ h.nvj, ← h.inv.qsum, ← h.inv.vsum]
  exact ⟨sum_take_full _ _, sum_take_full _ _⟩

/-- the segment of joint `k ≠ j` in the input and in the output -/
theorem seg_ok (h : MSetup m i j ei ej) {k : ℕ} {e : JEntry P} (he : m.joints[k]? = some e) (hk : k ≠ j) :
    (e.desc.nq = 0 ∨ ((moved j ej k e).idx_q = pq m j k ∧
      ((e.idx_q + e.desc.nq ≤ ej.idx_q ∧ pq m j k = e.idx_q) ∨ (ej.idx_q + ej.desc.nq ≤ e.idx_q ∧ pq m j k + ej.desc.nq = e.idx_q)))) ∧
    (e.desc.nv = 0 ∨ ((moved j ej k e).idx_v = pv m j k ∧
      ((e.idx_v + e.desc.nv ≤ ej.idx_v ∧ pv m j k = e.idx_v) ∨ (ej.idx_v + ej.desc.nv ≤ e.idx_v ∧ pv m j k + ej.desc.nv = e.idx_v)))) := by
  obtain ⟨-, -, -, -, q, v, -, hm⟩ := h.inv.ent k e he
  cases hmim : e.desc.mimic with
  | some x =>
    obtain ⟨-, -, z1, z2, -⟩ := h.fol k e x.1 x.2.1 x.2.2 he hmim
    exact ⟨Or.inl z1, Or.inl z2⟩
  | none =>
    obtain ⟨a1, a2⟩ := hm hmim
    obtain ⟨b1, b2⟩ := h.idxj
    have p1 := h.pq_eq k
    have p2 := h.pv_eq k
    have t : ftgt k e = k := by unfold ftgt; rw [hmim]
    simp only [moved, t, sh]
    rcases lt_or_gt_of_ne hk with hlt | hgt
    · rw [if_neg (by omega)] at p1 p2
      have c1 := sum_take_mono m.nqs (Nat.succ_le_of_lt hlt)
      have c2 := sum_take_mono m.nvs (Nat.succ_le_of_lt hlt)
      rw [Nat.succ_eq_add_one, sum_take_add _ q] at c1
      rw [Nat.succ_eq_add_one, sum_take_add _ v] at c2
      rw [if_pos hlt, if_pos hlt]
      exact ⟨Or.inr ⟨by omega, Or.inl ⟨by omega, by omega⟩⟩, Or.inr ⟨by omega, Or.inl ⟨by omega, by omega⟩⟩⟩
    · rw [if_pos hgt] at p1 p2
      have c1 := sum_take_mono m.nqs (Nat.succ_le_of_lt hgt)
      have c2 := sum_take_mono m.nvs (Nat.succ_le_of_lt hgt)
      rw [Nat.succ_eq_add_one, sum_take_add _ h.nqj] at c1
      rw [Nat.succ_eq_add_one, sum_take_add _ h.nvj] at c2
      rw [if_neg (by omega), if_neg (by omega)]
      exact ⟨Or.inr ⟨by omega, Or.inr ⟨by omega, by omega⟩⟩, Or.inr ⟨by omega, Or.inr ⟨by omega, by omega⟩⟩⟩

theorem seg_in (h : MSetup m i j ei ej) {k : ℕ} {e : JEntry P} (he : m.joints[k]? = some e) :
    (e.desc.nq = 0 ∨ e.idx_q + e.desc.nq ≤ m.nq) ∧ (e.desc.nv = 0 ∨ e.idx_v + e.desc.nv ≤ m.nv) := by
  obtain ⟨-, -, -, -, q, v, -, hm⟩ := h.inv.ent k e he
  cases hmim : e.desc.mimic with
  | some x =>
    obtain ⟨-, -, z1, z2, -⟩ := h.fol k e x.1 x.2.1 x.2.2 he hmim
    exact ⟨Or.inl z1, Or.inl z2⟩
  | none =>
    obtain ⟨a1, a2⟩ := hm hmim
    rw [a1, a2, ← sum_take_add _ q, ← sum_take_add _ v, ← h.inv.qsum, ← h.inv.vsum]
    exact ⟨Or.inr (sum_take_full _ _), Or.inr (sum_take_full _ _)⟩

/-- the copies of joint `k ≠ j` extend the prefix -/
theorem copy_pre (h : MSetup m i j ei ej) {k : ℕ} {e o : JEntry P} (he : m.joints[k]? = some e) (hk : k ≠ j)
    (oq : e.desc.nq ≠ 0 → o.idx_q = (moved j ej k e).idx_q) (ov : e.desc.nv ≠ 0 → o.idx_v = (moved j ej k e).idx_v) {p : Params K}
    (hp : (m.params.cut ej.idx_q ej.desc.nq ej.idx_v ej.desc.nv).Pre p (pq m j k) (pv m j k)) :
    (m.params.cut ej.idx_q ej.desc.nq ej.idx_v ej.desc.nv).Pre (m.params.copy e o p) (pq m j (k + 1)) (pv m j (k + 1)) := by
  obtain ⟨-, -, -, -, q, v, -, -⟩ := h.inv.ent k e he
  have e1 : pq m j (k + 1) = pq m j k + e.desc.nq := sum_take_add _ (by rw [List.getElem?_set_ne (Ne.symm hk)]; exact q)
  have e2 : pv m j (k + 1) = pv m j k + e.desc.nv := sum_take_add _ (by rw [List.getElem?_set_ne (Ne.symm hk)]; exact v)
  obtain ⟨sq, sv⟩ := h.seg_ok he hk
  obtain ⟨iq, iv⟩ := h.seg_in he
  obtain ⟨jq, jv⟩ := h.lej
  have l := h.inv.lens
  rw [e1, e2]
  have V : ∀ {L x : List K}, L.length = m.nv → Pre (Pin.cut L ej.idx_v ej.desc.nv) x (pv m j k) →
      Pre (Pin.cut L ej.idx_v ej.desc.nv) (setSeg x o.idx_v (selV e L)) (pv m j k + e.desc.nv) := by
    intro L x hL hx
    rcases Nat.eq_zero_or_pos e.desc.nv with h0 | h0
    · unfold selV; rw [h0, List.take_zero, setSeg_nil]; exact hx
    · refine hx.step (by omega) (by omega) (Or.inr ?_)
      rw [ov (by omega)]
      exact sv.resolve_left (by omega)
  have Q : ∀ {L x : List K}, L.length = m.nq → Pre (Pin.cut L ej.idx_q ej.desc.nq) x (pq m j k) →
      Pre (Pin.cut L ej.idx_q ej.desc.nq) (setSeg x o.idx_q (selQ e L)) (pq m j k + e.desc.nq) := by
    intro L x hL hx
    rcases Nat.eq_zero_or_pos e.desc.nq with h0 | h0
    · unfold selQ; rw [h0, List.take_zero, setSeg_nil]; exact hx
    · refine hx.step (by omega) (by omega) (Or.inr ?_)
      rw [oq (by omega)]
      exact sq.resolve_left (by omega)
  exact ⟨V l.armature hp.armature, V l.rotorInertia hp.rotorInertia, V l.rotorGearRatio hp.rotorGearRatio, V l.friction hp.friction,
    V l.damping hp.damping, V l.effortLimit hp.effortLimit, V l.velocityLimit hp.velocityLimit,
    Q l.lowerPositionLimit hp.lowerPositionLimit, Q l.upperPositionLimit hp.upperPositionLimit⟩

/-! ## the loops -/

theorem moved_lt (h : MSetup m i j ei ej) {k : ℕ} {e : JEntry P} (he : m.joints[k]? = some e) (hk : k < j) : moved j ej k e = e := by
  cases hm : e.desc.mimic with
  | none =>
    have t : ftgt k e = k := by unfold ftgt; rw [hm]
    simp only [moved, t, sh, if_pos hk]
    rw [hm]
    obtain ⟨⟨a, b, c, d, f⟩, x, y, z, w⟩ := e
    simp only at hm; subst hm; rfl
  | some x =>
    obtain ⟨mid, mq, mv⟩ := x
    obtain ⟨e1, e2, -, -, -, h3, -, -⟩ := h.fol k e mid mq mv he hm
    have t : ftgt k e = mid := by unfold ftgt; rw [hm]
    simp only [moved, t, sh, if_pos (show mid < j by omega)]
    rw [hm]
    obtain ⟨⟨a, b, c, d, f⟩, x, y, z, w⟩ := e
    simp only at hm e1 e2; subst hm e1 e2; rfl

theorem new_get (_ : MSetup m i j ei ej) {k : ℕ} {e : JEntry P} (he : m.joints[k]? = some e) (hk : k ≠ j) :
    (newJoints m i j ei ej J)[k]? = some (moved j ej k e) := by
  rw [newJoints_get, he, Option.map_some, if_neg hk]

theorem new_get_j (h : MSetup m i j ei ej) : (newJoints m i j ei ej J)[j]? = some (newJoint i j ei ej J) := by
  rw [newJoints_get, h.hj, Option.map_some, if_pos rfl]

theorem splice_self {α : Type*} {A B : List α} (hl : A.length = B.length) {k : ℕ} (hk : k ≤ A.length)
    (h : ∀ l < k, A[l]? = B[l]?) : splice A B k = B := by
  apply List.ext_getElem?
  intro l
  rw [splice_get hl k l hk]
  split
  · rename_i hlt; exact h l hlt
  · rfl

/-- before the second loop nothing but joint `j` has moved -/
theorem skel_j (h : MSetup m i j ei ej) : skel m i j ei ej J j = { m with
    joints := m.joints.set j ⟨⟨J, 0, 0, ej.desc.nvx, some (ei.id, ei.idx_q, ei.idx_v)⟩, 0, ei.idx_q, ei.idx_v, 0⟩
    nq := m.nq - ej.desc.nq
    nv := m.nv - ej.desc.nv } := by
  have jl := h.jl
  have jn := h.jn
  have l := h.inv.lens
  have l1 := l.idx_qs; have l2 := l.nqs; have l3 := l.idx_vs; have l4 := l.nvs
  have get : ∀ a < j, ∃ e, m.joints[a]? = some e := fun a ha => ⟨_, List.getElem?_eq_getElem (by omega)⟩
  have N := newJoints_length (m := m) (i := i) (j := j) (ei := ei) (ej := ej) (J := J)
  unfold skel
  simp only
  congr 1
  · refine splice_self (by rw [List.length_set, N]) (by omega) fun a ha => ?_
    obtain ⟨e, he⟩ := get a ha
    rw [h.new_get he (by omega), h.moved_lt he ha, List.getElem?_set_ne (by omega), he]
  all_goals
    refine splice_self (by simp only [List.length_map]; rw [N]; omega) (by simp only [List.length_map]; omega) fun a ha => ?_
    obtain ⟨e, he⟩ := get a ha
    obtain ⟨-, q1, v1, -, q2, v2, -, -⟩ := h.inv.ent a e he
    rw [List.getElem?_map, h.new_get he (by omega), h.moved_lt he ha, Option.map_some]
    first | exact q1.symm | exact v1.symm | exact q2.symm | exact v2.symm

theorem resizeLost_pre (junk : K) {L : List K} {a n N : ℕ} (hL : L.length = N) (h : a + n ≤ N) :
    Pre (Pin.cut L a n) (resizeLost junk L (N - n)) 0 := by
  refine ⟨?_, rfl⟩
  rw [cut_length (by omega)]
  unfold resizeLost
  split
  · omega
  · rw [List.length_replicate]; omega

theorem init_eq (h : MSetup m i j ei ej) (junk : K) : ∃ p, mimicInit junk m ei ej j J = (skel m i j ei ej J j).setParams p ∧
    (m.params.cut ej.idx_q ej.desc.nq ej.idx_v ej.desc.nv).Pre p (pq m j 1) (pv m j 1) := by
  have l := h.inv.lens
  obtain ⟨jq, jv⟩ := h.lej
  have j1 : 1 ≤ j := by have := h.ij; omega
  have z1 : pq m j 1 = 0 := by
    have := h.pq_eq 1
    rw [if_neg (by omega)] at this
    have n : 0 < m.nqs.length := by rw [l.nqs]; have := h.jn; omega
    have q0 := h.inv.q0
    rw [List.getD_eq_getElem?_getD, List.getElem?_eq_getElem n, Option.getD_some] at q0
    rw [sum_take_add _ (List.getElem?_eq_getElem n), q0] at this
    simpa using this
  have z2 : pv m j 1 = 0 := by
    have := h.pv_eq 1
    rw [if_neg (by omega)] at this
    have n : 0 < m.nvs.length := by rw [l.nvs]; have := h.jn; omega
    have v0 := h.inv.v0
    rw [List.getD_eq_getElem?_getD, List.getElem?_eq_getElem n, Option.getD_some] at v0
    rw [sum_take_add _ (List.getElem?_eq_getElem n), v0] at this
    simpa using this
  refine ⟨(mimicInit junk m ei ej j J).params, ?_, ?_⟩
  · rw [h.skel_j]; rfl
  · rw [z1, z2]
    exact ⟨resizeLost_pre junk l.armature jv, resizeLost_pre junk l.rotorInertia jv, resizeLost_pre junk l.rotorGearRatio jv,
      resizeLost_pre junk l.friction jv, resizeLost_pre junk l.damping jv, resizeLost_pre junk l.effortLimit jv,
      resizeLost_pre junk l.velocityLimit jv, resizeLost_pre junk l.lowerPositionLimit jq, resizeLost_pre junk l.upperPositionLimit jq⟩

theorem before_eq (h : MSetup m i j ei ej) : ∀ (c k : ℕ) (p : Params K), 1 ≤ k → k + c = j →
    (m.params.cut ej.idx_q ej.desc.nq ej.idx_v ej.desc.nv).Pre p (pq m j k) (pv m j k) →
    ∃ p', (List.range' k c).foldl (mimicBefore m) ((skel m i j ei ej J j).setParams p) = (skel m i j ei ej J j).setParams p' ∧
      (m.params.cut ej.idx_q ej.desc.nq ej.idx_v ej.desc.nv).Pre p' (pq m j j) (pv m j j) := by
  intro c
  induction c with
  | zero => intro k p _ hk hp; obtain rfl : k = j := by omega
            exact ⟨p, rfl, hp⟩
  | succ c ih =>
    intro k p hk hc hp
    have jl := h.jl
    have jn := h.jn
    obtain ⟨e, he⟩ : ∃ e, m.joints[k]? = some e := ⟨_, List.getElem?_eq_getElem (by omega)⟩
    have ho : ((skel m i j ei ej J j).setParams p).joints[k]? = some e := by
      rw [h.skel_j]
      change (m.joints.set j _)[k]? = _
      rw [List.getElem?_set_ne (by omega), he]
    have hs : mimicBefore m ((skel m i j ei ej J j).setParams p) k = (skel m i j ei ej J j).setParams (m.params.copy e e p) := by
      unfold mimicBefore
      rw [he, ho]
      exact copyParams_eq m _ e e p
    rw [List.range'_succ, List.foldl_cons, hs]
    have hmv := h.moved_lt he (by omega)
    exact ih (k + 1) _ (by omega) (by omega) (h.copy_pre he (by omega) (fun _ => by rw [hmv]) (fun _ => by rw [hmv]) hp)

theorem skel_set (h : MSetup m i j ei ej) {k : ℕ} {e : JEntry P} (he : (newJoints m i j ei ej J)[k]? = some e) (p : Params K) :
    ({ (skel m i j ei ej J k).setParams p with
      joints := ((skel m i j ei ej J k).setParams p).joints.set k e
      idx_qs := ((skel m i j ei ej J k).setParams p).idx_qs.set k e.idx_q
      nqs := ((skel m i j ei ej J k).setParams p).nqs.set k e.desc.nq
      idx_vs := ((skel m i j ei ej J k).setParams p).idx_vs.set k e.idx_v
      nvs := ((skel m i j ei ej J k).setParams p).nvs.set k e.desc.nv } : Model K P) = (skel m i j ei ej J (k + 1)).setParams p := by
  have l := h.inv.lens
  have jl := h.jl
  have N := newJoints_length (m := m) (i := i) (j := j) (ei := ei) (ej := ej) (J := J)
  have l1 := l.idx_qs; have l2 := l.nqs; have l3 := l.idx_vs; have l4 := l.nvs
  have M : ∀ {f : JEntry P → ℕ}, ((newJoints m i j ei ej J).map f)[k]? = some (f e) := by
    intro f; rw [List.getElem?_map, he, Option.map_some]
  unfold skel setParams
  simp only
  rw [splice_set (by rw [List.length_set, N]) he, splice_set (by rw [List.length_map, N]; omega) M,
    splice_set (by rw [List.length_map, N]; omega) M, splice_set (by rw [List.length_map, N]; omega) M,
    splice_set (by rw [List.length_map, N]; omega) M]

/-- one iteration of the second loop -/
theorem after_step (h : MSetup m i j ei ej) {k : ℕ} (hk : j ≤ k) (hn : k < m.njoints) {p : Params K}
    (hp : (m.params.cut ej.idx_q ej.desc.nq ej.idx_v ej.desc.nv).Pre p (pq m j k) (pv m j k)) :
    ∃ p', mimicAfter m j ⟨(skel m i j ei ej J k).setParams p, pq m j k, pv m j k⟩ k
      = .ok () ⟨(skel m i j ei ej J (k + 1)).setParams p', pq m j (k + 1), pv m j (k + 1)⟩ ∧
      (m.params.cut ej.idx_q ej.desc.nq ej.idx_v ej.desc.nv).Pre p' (pq m j (k + 1)) (pv m j (k + 1)) := by
  have l := h.inv.lens
  have jl := h.jl
  have ij := h.ij
  have N := newJoints_length (m := m) (i := i) (j := j) (ei := ei) (ej := ej) (J := J)
  have hjo : ((skel m i j ei ej J k).setParams p).joints[k]?
      = (m.joints.set j ⟨⟨J, 0, 0, ej.desc.nvx, some (ei.id, ei.idx_q, ei.idx_v)⟩, 0, ei.idx_q, ei.idx_v, 0⟩)[k]? := by
    change (splice _ _ k)[k]? = _
    rw [splice_get (by rw [List.length_set, N]) k k (by omega), if_neg (by omega)]
  have idi : ei.id = i := (h.inv.ent i ei h.hi).1
  have idj : ej.id = j := (h.inv.ent j ej h.hj).1
  rcases Nat.eq_or_lt_of_le hk with rfl | hlt
  · -- the new joint
    rw [List.getElem?_set_self (by omega)] at hjo
    have s1 : pq m j (j + 1) = pq m j j + 0 :=
      sum_take_add _ (by rw [List.getElem?_set_self (by rw [l.nqs]; omega)])
    have s2 : pv m j (j + 1) = pv m j j + 0 :=
      sum_take_add _ (by rw [List.getElem?_set_self (by rw [l.nvs]; omega)])
    refine ⟨p, ?_, by rw [s1, s2]; exact hp⟩
    have hS := h.skel_set (J := J) h.new_get_j p
    unfold mimicAfter
    rw [h.hj, hjo]
    simp only [JDesc.setIndexes, idi, idj, if_pos ij, ne_eq, not_true_eq_false, if_false]
    rw [s1, s2]
    exact congrArg _ (congrArg (fun x => MState.mk x _ _) hS)
  · obtain ⟨e, he⟩ : ∃ e, m.joints[k]? = some e := ⟨_, List.getElem?_eq_getElem (by omega)⟩
    obtain ⟨idk, -, -, -, q, v, -, hnm⟩ := h.inv.ent k e he
    rw [List.getElem?_set_ne (by omega), he] at hjo
    have hkj : k ≠ j := by omega
    have s1 : pq m j (k + 1) = pq m j k + e.desc.nq := sum_take_add _ (by rw [List.getElem?_set_ne (Ne.symm hkj)]; exact q)
    have s2 : pv m j (k + 1) = pv m j k + e.desc.nv := sum_take_add _ (by rw [List.getElem?_set_ne (Ne.symm hkj)]; exact v)
    refine ⟨m.params.copy e (moved j ej k e) p, ?_, h.copy_pre he hkj (fun _ => rfl) (fun _ => rfl) hp⟩
    have hS := h.skel_set (J := J) (h.new_get he hkj) p
    -- the joint that is stored
    have key : ∃ d, e.desc.setIndexes e.id (pq m j k) (pv m j k) e.idx_vx = some d ∧
        refollow ((skel m i j ei ej J k).setParams p) d = some (moved j ej k e) := by
      cases hm : e.desc.mimic with
      | none =>
        obtain ⟨a1, a2⟩ := hnm hm
        have p1 := h.pq_eq k
        have p2 := h.pv_eq k
        rw [if_pos hlt] at p1 p2
        have t : ftgt k e = k := by unfold ftgt; rw [hm]
        refine ⟨⟨e.desc, e.id, pq m j k, pv m j k, e.idx_vx⟩, by unfold JDesc.setIndexes; rw [hm], ?_⟩
        unfold refollow
        simp only [hm, moved, t, sh, if_neg (show ¬ k < j by omega), Option.map_none]
        rw [show e.idx_q - ej.desc.nq = pq m j k by omega, show e.idx_v - ej.desc.nv = pv m j k by omega]
        obtain ⟨⟨a, b, c, d, f⟩, x, y, z, w⟩ := e
        simp only at hm; subst hm; rfl
      | some x =>
        obtain ⟨mid, mq, mv⟩ := x
        obtain ⟨e1, e2, -, -, m1, m2, m3, pe, hpe, pm, pq', pv'⟩ := h.fol k e mid mq mv he hm
        have t : ftgt k e = mid := by unfold ftgt; rw [hm]
        have tp : ftgt mid pe = mid := by unfold ftgt; rw [pm]
        refine ⟨⟨e.desc, e.id, mq, mv, e.idx_vx⟩, by unfold JDesc.setIndexes; rw [hm]; simp only; rw [if_pos (by omega)], ?_⟩
        have g : ∀ {f : JEntry P → ℕ} {L : List ℕ}, L.length = m.njoints →
            (splice ((newJoints m i j ei ej J).map f) L k)[mid]? = some (f (moved j ej mid pe)) := by
          intro f L hL
          rw [splice_get (by rw [List.length_map, N]; omega) k mid (by rw [List.length_map, N]; omega), if_pos m2,
            List.getElem?_map, h.new_get hpe m3, Option.map_some]
        have g1 : ((skel m i j ei ej J k).setParams p).idx_qs[mid]? = some (moved j ej mid pe).idx_q := g l.idx_qs
        have g2 : ((skel m i j ei ej J k).setParams p).idx_vs[mid]? = some (moved j ej mid pe).idx_v := g l.idx_vs
        unfold refollow
        simp only [hm, g1, g2]
        simp only [moved, t, tp, hm, Option.map_some, pq', pv']
    obtain ⟨d, hd, hr⟩ := key
    unfold mimicAfter
    rw [he, hjo]
    simp only [hd, if_pos hkj, hr]
    rw [s1, s2]
    refine congrArg _ ?_
    refine congrArg (fun x => MState.mk x _ _) ?_
    rw [hS]
    exact copyParams_eq m _ e _ p

theorem loop_eq (h : MSetup m i j ei ej) : ∀ (c k : ℕ) (p : Params K), j ≤ k → k + c = m.njoints →
    (m.params.cut ej.idx_q ej.desc.nq ej.idx_v ej.desc.nv).Pre p (pq m j k) (pv m j k) →
    ∃ p', mimicLoop m j (List.range' k c) ⟨(skel m i j ei ej J k).setParams p, pq m j k, pv m j k⟩
      = .ok () ⟨(skel m i j ei ej J m.njoints).setParams p', pq m j m.njoints, pv m j m.njoints⟩ ∧
      (m.params.cut ej.idx_q ej.desc.nq ej.idx_v ej.desc.nv).Pre p' (pq m j m.njoints) (pv m j m.njoints) := by
  intro c
  induction c with
  | zero => intro k p _ hk hp; obtain rfl : k = m.njoints := by omega
            exact ⟨p, rfl, hp⟩
  | succ c ih =>
    intro k p hk hc hp
    obtain ⟨p', e1, hp'⟩ := h.after_step (J := J) hk (by omega) hp
    obtain ⟨p'', e2, hp''⟩ := ih (k + 1) p' (by omega) (by omega) hp'
    refine ⟨p'', ?_, hp''⟩
    rw [List.range'_succ]
    unfold mimicLoop
    rw [e1]
    exact e2

theorem Params.Pre.full {C p : Params K} {a b : ℕ} (h : C.Pre p a b) (ha : C.lowerPositionLimit.length ≤ a)
    (ha' : C.upperPositionLimit.length ≤ a) (hb : C.armature.length ≤ b ∧ C.rotorInertia.length ≤ b ∧ C.rotorGearRatio.length ≤ b ∧
      C.friction.length ≤ b ∧ C.damping.length ≤ b ∧ C.effortLimit.length ≤ b ∧ C.velocityLimit.length ≤ b) : p = C := by
  obtain ⟨a1, a2, a3, a4, a5, a6, a7⟩ := hb
  obtain ⟨h1, h2, h3, h4, h5, h6, h7, h8, h9⟩ := h
  have := h1.full a1
  have := h2.full a2
  have := h3.full a3
  have := h4.full a4
  have := h5.full a5
  have := h6.full a6
  have := h7.full a7
  have := h8.full ha
  have := h9.full ha'
  cases p; cases C; simp_all

/-- the model after the call -/
def result (m : Model K P) (i j : ℕ) (ei ej : JEntry P) (J : P) : Model K P :=
  let N := newJoints m i j ei ej J
  { ({ m with
      joints := N
      nq := m.nq - ej.desc.nq
      nv := m.nv - ej.desc.nv
      idx_qs := N.map (·.idx_q)
      nqs := N.map (·.desc.nq)
      idx_vs := N.map (·.idx_v)
      nvs := N.map (·.desc.nv) } : Model K P).setParams (m.params.cut ej.idx_q ej.desc.nq ej.idx_v ej.desc.nv) with
    mimicSupports := (m.subtrees.getD j []).foldl (fun l k => l.modify k (insertSort j)) m.mimicSupports
    mimicking := insertSort j m.mimicking
    mimicked := insertSort i m.mimicked }

theorem transform_eq (h : MSetup m i j ei ej) (junk : K) (mk : P → Option P) (hJ : mk ej.desc.payload = some J) :
    transformJointIntoMimic junk mk m i j = .ok () (result m i j ei ej J) := by
  have l := h.inv.lens
  have jl := h.jl
  have jn := h.jn
  have ij := h.ij
  have i1 := h.i1
  obtain ⟨jq, jv⟩ := h.lej
  have N := newJoints_length (m := m) (i := i) (j := j) (ei := ei) (ej := ej) (J := J)
  obtain ⟨p0, e0, h0⟩ := h.init_eq (J := J) junk
  obtain ⟨p1, e1, h1⟩ := h.before_eq (J := J) (j - 1) 1 p0 le_rfl (by omega) h0
  obtain ⟨p2, e2, h2⟩ := h.loop_eq (J := J) (m.njoints - j) j p1 le_rfl (by omega) h1
  have tq : pq m j m.njoints = m.nq - ej.desc.nq := by
    have := h.pq_eq m.njoints
    rw [if_pos jn, List.take_of_length_le (by rw [l.nqs]), h.inv.qsum] at this; omega
  have tv : pv m j m.njoints = m.nv - ej.desc.nv := by
    have := h.pv_eq m.njoints
    rw [if_pos jn, List.take_of_length_le (by rw [l.nvs]), h.inv.vsum] at this; omega
  have cl : ∀ {L : List K}, L.length = m.nv → (Pin.cut L ej.idx_v ej.desc.nv).length ≤ pv m j m.njoints := by
    intro L hL; rw [cut_length (by omega), tv]; omega
  have cq : ∀ {L : List K}, L.length = m.nq → (Pin.cut L ej.idx_q ej.desc.nq).length ≤ pq m j m.njoints := by
    intro L hL; rw [cut_length (by omega), tq]; omega
  have hp2 : p2 = m.params.cut ej.idx_q ej.desc.nq ej.idx_v ej.desc.nv :=
    Params.Pre.full h2 (cq l.lowerPositionLimit) (cq l.upperPositionLimit)
      ⟨cl l.armature, cl l.rotorInertia, cl l.rotorGearRatio, cl l.friction, cl l.damping, cl l.effortLimit, cl l.velocityLimit⟩
  obtain ⟨b1, b2⟩ := h.idxj
  have w1 : m.idx_qs.getD j 0 = pq m j j := by
    have := h.pq_eq j
    rw [if_neg (by omega)] at this
    rw [List.getD_eq_getElem?_getD, (h.inv.ent j ej h.hj).2.1, Option.getD_some]; omega
  have w2 : m.idx_vs.getD j 0 = pv m j j := by
    have := h.pv_eq j
    rw [if_neg (by omega)] at this
    rw [List.getD_eq_getElem?_getD, (h.inv.ent j ej h.hj).2.2.1, Option.getD_some]; omega
  have x1 : ((skel m i j ei ej J j).setParams p1).idx_qs.getD j 0 = pq m j j := by rw [h.skel_j]; exact w1
  have x2 : ((skel m i j ei ej J j).setParams p1).idx_vs.getD j 0 = pv m j j := by rw [h.skel_j]; exact w2
  unfold transformJointIntoMimic
  rw [if_neg (by omega), if_neg (by omega), if_neg (by omega), h.hi, h.hj]
  simp only [hJ]
  rw [if_neg (by omega), e0, e1, x1, x2, e2]
  simp only
  refine congrArg _ ?_
  have F : ∀ {A B : List ℕ}, A.length = m.njoints → B.length = m.njoints → splice A B m.njoints = A := by
    intro A B hA hB
    rw [← hA]; exact splice_full (by omega)
  have G : ∀ {A B : List (JEntry P)}, A.length = m.njoints → B.length = m.njoints → splice A B m.njoints = A := by
    intro A B hA hB
    rw [← hA]; exact splice_full (by omega)
  unfold result skel setParams
  simp only
  rw [G (by omega) (by rw [List.length_set]; omega), F (by rw [List.length_map]; omega) l.idx_qs, F (by rw [List.length_map]; omega) l.nqs,
    F (by rw [List.length_map]; omega) l.idx_vs, F (by rw [List.length_map]; omega) l.nvs, hp2]

/-! ## the result -/

theorem nqs_eq (h : MSetup m i j ei ej) : (newJoints m i j ei ej J).map (·.desc.nq) = m.nqs.set j 0 := by
  have l := h.inv.lens
  have jl := h.jl
  have jn := h.jn
  apply List.ext_getElem?
  intro k
  by_cases hk : k < m.njoints
  · obtain ⟨e, he⟩ : ∃ e, m.joints[k]? = some e := ⟨_, List.getElem?_eq_getElem (by omega)⟩
    obtain ⟨-, -, -, -, q, v, -, -⟩ := h.inv.ent k e he
    rw [List.getElem?_map, List.getElem?_set, l.nqs]
    by_cases e1 : k = j
    · subst e1; rw [h.new_get_j, if_pos rfl, if_pos hk]; rfl
    · rw [h.new_get he e1, if_neg (Ne.symm e1), q]; rfl
  · rw [List.getElem?_eq_none (by rw [List.length_map, newJoints_length]; omega),
      List.getElem?_eq_none (by rw [List.length_set, l.nqs]; omega)]

theorem nvs_eq (h : MSetup m i j ei ej) : (newJoints m i j ei ej J).map (·.desc.nv) = m.nvs.set j 0 := by
  have l := h.inv.lens
  have jl := h.jl
  have jn := h.jn
  apply List.ext_getElem?
  intro k
  by_cases hk : k < m.njoints
  · obtain ⟨e, he⟩ : ∃ e, m.joints[k]? = some e := ⟨_, List.getElem?_eq_getElem (by omega)⟩
    obtain ⟨-, -, -, -, q, v, -, -⟩ := h.inv.ent k e he
    rw [List.getElem?_map, List.getElem?_set, l.nvs]
    by_cases e1 : k = j
    · subst e1; rw [h.new_get_j, if_pos rfl, if_pos hk]; rfl
    · rw [h.new_get he e1, if_neg (Ne.symm e1), v]; rfl
  · rw [List.getElem?_eq_none (by rw [List.length_map, newJoints_length]; omega),
      List.getElem?_eq_none (by rw [List.length_set, l.nvs]; omega)]

/-- the indexes of the joints that are not mimic joints -/
theorem moved_idx (h : MSetup m i j ei ej) {k : ℕ} {e : JEntry P} (he : m.joints[k]? = some e) (hk : k ≠ j)
    (hm : e.desc.mimic = none) : (moved j ej k e).idx_q = pq m j k ∧ (moved j ej k e).idx_v = pv m j k := by
  obtain ⟨-, -, -, -, q, v, -, hnm⟩ := h.inv.ent k e he
  obtain ⟨a1, a2⟩ := hnm hm
  have p1 := h.pq_eq k
  have p2 := h.pv_eq k
  have t : ftgt k e = k := by unfold ftgt; rw [hm]
  simp only [moved, t, sh]
  by_cases hlt : k < j
  · rw [if_neg (by omega)] at p1 p2
    rw [if_pos hlt, if_pos hlt]; omega
  · rw [if_pos (by omega)] at p1 p2
    rw [if_neg hlt, if_neg hlt]; omega

theorem subtree_nodup (h : MSetup m i j ei ej) : (m.subtrees.getD j []).Nodup := by
  rw [h.inv.sub j h.jn]
  exact List.Nodup.filter _ List.nodup_range

theorem foldl_modify_length {α : Type*} (f : α → α) (t : List ℕ) (l : List α) :
    (t.foldl (fun l k => l.modify k f) l).length = l.length := by
  induction t generalizing l with
  | nil => rfl
  | cons a t ih => rw [List.foldl_cons, ih, List.length_modify]

/-- the parameters of the other joints -/
theorem sel_cut (h : MSetup m i j ei ej) {k : ℕ} {e : JEntry P} (he : m.joints[k]? = some e) (hk : k ≠ j) :
    (∀ {L : List K}, L.length = m.nv → selV (moved j ej k e) (Pin.cut L ej.idx_v ej.desc.nv) = selV e L) ∧
    (∀ {L : List K}, L.length = m.nq → selQ (moved j ej k e) (Pin.cut L ej.idx_q ej.desc.nq) = selQ e L) := by
  obtain ⟨sq, sv⟩ := h.seg_ok he hk
  obtain ⟨jq, jv⟩ := h.lej
  constructor
  · intro L hL
    change ((Pin.cut L ej.idx_v ej.desc.nv).drop (moved j ej k e).idx_v).take e.desc.nv = (L.drop e.idx_v).take e.desc.nv
    rcases sv with h0 | ⟨h1, ⟨h2, h3⟩ | ⟨h2, h3⟩⟩
    · rw [h0, List.take_zero, List.take_zero]
    · rw [h1, h3, cut_before h2 (by omega)]
    · rw [h1, show pv m j k = e.idx_v - ej.desc.nv by omega, cut_after h2 (by omega)]
  · intro L hL
    change ((Pin.cut L ej.idx_q ej.desc.nq).drop (moved j ej k e).idx_q).take e.desc.nq = (L.drop e.idx_q).take e.desc.nq
    rcases sq with h0 | ⟨h1, ⟨h2, h3⟩ | ⟨h2, h3⟩⟩
    · rw [h0, List.take_zero, List.take_zero]
    · rw [h1, h3, cut_before h2 (by omega)]
    · rw [h1, show pq m j k = e.idx_q - ej.desc.nq by omega, cut_after h2 (by omega)]

theorem res_i (h : MSetup m i j ei ej) : (result m i j ei ej J).joints[i]? = some ei := by
  have hij := h.ij
  change (newJoints m i j ei ej J)[i]? = _
  rw [h.new_get h.hi (by omega), h.moved_lt h.hi hij]

theorem res_mimicOf (h : MSetup m i j ei ej) : MimicOf m (result m i j ei ej J) i j ej J := by
  have l := h.inv.lens
  have jl := h.jl
  have jn := h.jn
  have hij := h.ij
  obtain ⟨jq, jv⟩ := h.lej
  refine ⟨⟨rfl, rfl, rfl, rfl, rfl, rfl, rfl, rfl, rfl, rfl, rfl, rfl, rfl, rfl⟩, ?_, ?_, ⟨ei, h.res_i, h.mi, h.new_get_j⟩, ?_, ?_, ?_, ?_⟩
  · change m.nq - ej.desc.nq + _ = _; omega
  · change m.nv - ej.desc.nv + _ = _; omega
  · intro k hkj e he
    obtain ⟨sV, sQ⟩ := h.sel_cut he hkj
    refine ⟨moved j ej k e, h.new_get he hkj, rfl, rfl, rfl, rfl, rfl, rfl, ?_, ?_, sV l.effortLimit, sV l.velocityLimit,
      sQ l.lowerPositionLimit, sQ l.upperPositionLimit, sV l.armature, sV l.rotorInertia, sV l.rotorGearRatio, sV l.friction, sV l.damping⟩
    · intro hm; change e.desc.mimic.map _ = none; rw [hm]; rfl
    · intro mid mq mv hm
      obtain ⟨-, -, -, -, m1, m2, m3, pe, hpe, pm, q, v⟩ := h.fol k e mid mq mv he hm
      have t : ftgt k e = mid := by unfold ftgt; rw [hm]
      have tp : ftgt mid pe = mid := by unfold ftgt; rw [pm]
      refine ⟨moved j ej mid pe, h.new_get hpe m3, ?_, ?_, ?_⟩ <;> simp only [moved, t, tp, hm, q, v, Option.map_some]
  · intro k; exact mem_insertSort j m.mimicking k
  · intro k; exact mem_insertSort i m.mimicked k
  · intro k hk x
    change x ∈ ((m.subtrees.getD j []).foldl (fun l k => l.modify k (insertSort j)) m.mimicSupports).getD k [] ↔ _
    rw [foldl_modify _ _ _ _ h.subtree_nodup k (by rw [l.mimicSupports]; exact hk)]
    have key : k ∈ m.subtrees.getD j [] ↔ j ∈ m.supports.getD k [] := by
      rw [h.inv.sub j jn, List.mem_filter, List.mem_range]
      simp only [decide_eq_true_eq]
      constructor
      · exact fun h => h.2.2
      · intro hj
        refine ⟨hk, ?_, hj⟩
        by_contra hc
        obtain rfl : k = 0 := by omega
        rw [h.inv.sup0] at hj
        have := List.mem_singleton.1 hj
        omega
    rw [← key]
    split
    · rename_i hm; rw [mem_insertSort]; constructor
      · rintro (rfl | h); exacts [Or.inr ⟨rfl, hm⟩, Or.inl h]
      · rintro (h | ⟨rfl, -⟩); exacts [Or.inr h, Or.inl rfl]
    · rename_i hm; constructor
      · exact Or.inl
      · rintro (h | ⟨-, h⟩); exacts [h, absurd h hm]

theorem res_inv (h : MSetup m i j ei ej) : Inv (result m i j ei ej J) := by
  have l := h.inv.lens
  have jl := h.jl
  have jn := h.jn
  have hij := h.ij
  have i1 := h.i1
  obtain ⟨jq, jv⟩ := h.lej
  have N := newJoints_length (m := m) (i := i) (j := j) (ei := ei) (ej := ej) (J := J)
  have nq : (result m i j ei ej J).nqs = m.nqs.set j 0 := h.nqs_eq
  have nv : (result m i j ei ej J).nvs = m.nvs.set j 0 := h.nvs_eq
  have cl : ∀ {L : List K}, L.length = m.nv → (Pin.cut L ej.idx_v ej.desc.nv).length = m.nv - ej.desc.nv := by
    intro L hL; rw [cut_length (by omega)]; omega
  have cq : ∀ {L : List K}, L.length = m.nq → (Pin.cut L ej.idx_q ej.desc.nq).length = m.nq - ej.desc.nq := by
    intro L hL; rw [cut_length (by omega)]; omega
  have ent : ∀ k e, (result m i j ei ej J).joints[k]? = some e → e.id = k ∧ (result m i j ei ej J).idx_qs[k]? = some e.idx_q ∧
    (result m i j ei ej J).idx_vs[k]? = some e.idx_v ∧ (result m i j ei ej J).idx_vxs[k]? = some e.idx_vx ∧
    (result m i j ei ej J).nqs[k]? = some e.desc.nq ∧ (result m i j ei ej J).nvs[k]? = some e.desc.nv ∧
    (result m i j ei ej J).nvxs[k]? = some e.desc.nvx ∧
    (e.desc.mimic = none → e.idx_q = ((result m i j ei ej J).nqs.take k).sum ∧ e.idx_v = ((result m i j ei ej J).nvs.take k).sum) := by
    intro k o ho
    have ho' : (newJoints m i j ei ej J)[k]? = some o := ho
    have hkn : k < m.njoints := by
      by_contra hc; rw [List.getElem?_eq_none (by omega)] at ho'; cases ho'
    obtain ⟨e, he⟩ : ∃ e, m.joints[k]? = some e := ⟨_, List.getElem?_eq_getElem (by omega)⟩
    obtain ⟨e1, e2, e3, e4, e5, e6, e7, e8⟩ := h.inv.ent k e he
    have M : ∀ {f : JEntry P → ℕ}, ((newJoints m i j ei ej J).map f)[k]? = some (f o) := by
      intro f; rw [List.getElem?_map, ho', Option.map_some]
    have hx : o.id = k ∧ m.idx_vxs[k]? = some o.idx_vx ∧ m.nvxs[k]? = some o.desc.nvx ∧
        (o.desc.mimic = none → o.idx_q = pq m j k ∧ o.idx_v = pv m j k) := by
      by_cases hkj : k = j
      · subst hkj
        rw [h.new_get_j] at ho'
        rw [h.hj] at he
        cases he; cases ho'
        exact ⟨rfl, e4, e7, fun hm => by cases hm⟩
      · rw [h.new_get he hkj] at ho'
        cases ho'
        refine ⟨e1, e4, e7, fun hm => ?_⟩
        refine h.moved_idx he hkj ?_
        change e.desc.mimic.map _ = none at hm
        cases hmm : e.desc.mimic with
        | none => rfl
        | some x => rw [hmm] at hm; cases hm
    obtain ⟨x1, x2, x3, x4⟩ := hx
    refine ⟨x1, M, M, x2, M, M, x3, ?_⟩
    rw [nq, nv]; exact x4
  refine ⟨⟨l.pos, l.inertias, l.jointPlacements, ?_, ?_, ?_, ?_, ?_, l.idx_vxs, l.nvxs, l.parents, l.children, l.names, l.supports, ?_,
    l.subtrees, l.nframes, cl l.armature, cl l.rotorInertia, cl l.rotorGearRatio, cl l.friction, cl l.damping, cl l.effortLimit,
    cl l.velocityLimit, cq l.lowerPositionLimit, cq l.upperPositionLimit⟩, h.inv.par, ?_, ?_, h.inv.vxsum, ?_, ?_, h.inv.vx0,
    ?_, ?_, h.inv.idxvx, ent, h.inv.chi, h.inv.sup0, h.inv.sup, h.inv.sub⟩
  · exact N.trans jl
  · change (List.map _ _).length = _; rw [List.length_map, N]; exact jl
  · change (List.map _ _).length = _; rw [List.length_map, N]; exact jl
  · change (List.map _ _).length = _; rw [List.length_map, N]; exact jl
  · change (List.map _ _).length = _; rw [List.length_map, N]; exact jl
  · exact (foldl_modify_length _ _ _).trans l.mimicSupports
  · have := h.pq_eq m.njoints
    rw [if_pos jn, List.take_of_length_le (by rw [l.nqs]), h.inv.qsum] at this
    unfold pq at this
    rw [List.take_of_length_le (by rw [List.length_set, l.nqs])] at this
    rw [nq]; change _ = m.nq - ej.desc.nq; omega
  · have := h.pv_eq m.njoints
    rw [if_pos jn, List.take_of_length_le (by rw [l.nvs]), h.inv.vsum] at this
    unfold pv at this
    rw [List.take_of_length_le (by rw [List.length_set, l.nvs])] at this
    rw [nv]; change _ = m.nv - ej.desc.nv; omega
  · rw [nq]; have := h.inv.q0
    rw [List.getD_eq_getElem?_getD] at this ⊢
    rw [List.getElem?_set_ne (by omega)]; exact this
  · rw [nv]; have := h.inv.v0
    rw [List.getD_eq_getElem?_getD] at this ⊢
    rw [List.getElem?_set_ne (by omega)]; exact this
  · intro k hk hne
    obtain ⟨o, ho⟩ : ∃ e, (result m i j ei ej J).joints[k]? = some e := ⟨_, List.getElem?_eq_getElem (by
      change k < (newJoints m i j ei ej J).length; rw [N, jl]; exact hk)⟩
    obtain ⟨e1, e2, e3, e4, e5, e6, e7, e8⟩ := ent k o ho
    rw [List.getD_eq_getElem?_getD, e5, Option.getD_some] at hne
    rw [List.getD_eq_getElem?_getD, e2, Option.getD_some]
    cases hm : o.desc.mimic with
    | none => exact (e8 hm).1
    | some x =>
      exfalso; apply hne
      have ho' : (newJoints m i j ei ej J)[k]? = some o := ho
      by_cases hkj : k = j
      · subst hkj; rw [h.new_get_j] at ho'; cases ho'; rfl
      · obtain ⟨e, he⟩ : ∃ e, m.joints[k]? = some e := ⟨_, List.getElem?_eq_getElem (by rw [jl]; exact hk)⟩
        rw [h.new_get he hkj] at ho'; cases ho'
        cases hmm : e.desc.mimic with
        | none => change e.desc.mimic.map _ = _ at hm; rw [hmm] at hm; cases hm
        | some y => exact (h.fol k e y.1 y.2.1 y.2.2 he hmm).2.2.1
  · intro k hk hne
    obtain ⟨o, ho⟩ : ∃ e, (result m i j ei ej J).joints[k]? = some e := ⟨_, List.getElem?_eq_getElem (by
      change k < (newJoints m i j ei ej J).length; rw [N, jl]; exact hk)⟩
    obtain ⟨e1, e2, e3, e4, e5, e6, e7, e8⟩ := ent k o ho
    rw [List.getD_eq_getElem?_getD, e6, Option.getD_some] at hne
    rw [List.getD_eq_getElem?_getD, e3, Option.getD_some]
    cases hm : o.desc.mimic with
    | none => exact (e8 hm).2
    | some x =>
      exfalso; apply hne
      have ho' : (newJoints m i j ei ej J)[k]? = some o := ho
      by_cases hkj : k = j
      · subst hkj; rw [h.new_get_j] at ho'; cases ho'; rfl
      · obtain ⟨e, he⟩ : ∃ e, m.joints[k]? = some e := ⟨_, List.getElem?_eq_getElem (by rw [jl]; exact hk)⟩
        rw [h.new_get he hkj] at ho'; cases ho'
        cases hmm : e.desc.mimic with
        | none => change e.desc.mimic.map _ = _ at hm; rw [hmm] at hm; cases hm
        | some y => exact (h.fol k e y.1 y.2.1 y.2.2 he hmm).2.2.2.1

end MSetup

theorem KeepsJoint.trans {m m1 m2 : Model K P} {k : ℕ} (h : m.KeepsJoint m1 k) (h' : m1.KeepsJoint m2 k) : m.KeepsJoint m2 k := by
  intro e he
  obtain ⟨o, ho, a1, a2, a3, a4, a5, a6, a7, a8, b1, b2, b3, b4, b5, b6, b7, b8, b9⟩ := h e he
  obtain ⟨o', ho', c1, c2, c3, c4, c5, c6, c7, c8, d1, d2, d3, d4, d5, d6, d7, d8, d9⟩ := h' o ho
  refine ⟨o', ho', c1.trans a1, c2.trans a2, c3.trans a3, c4.trans a4, c5.trans a5, c6.trans a6, fun hm => c7 (a7 hm), ?_,
    d1.trans b1, d2.trans b2, d3.trans b3, d4.trans b4, d5.trans b5, d6.trans b6, d7.trans b7, d8.trans b8, d9.trans b9⟩
  intro mid mq mv hm
  obtain ⟨p, -, hp, -, -⟩ := a8 mid mq mv hm
  exact c8 _ _ _ hp

theorem SameTree.trans {m m1 m2 : Model K P} (h : m.SameTree m1) (h' : m1.SameTree m2) : m.SameTree m2 := by
  obtain ⟨a1, a2, a3, a4, a5, a6, a7, a8, a9, b1, b2, b3, b4, b5⟩ := h
  obtain ⟨c1, c2, c3, c4, c5, c6, c7, c8, c9, d1, d2, d3, d4, d5⟩ := h'
  exact ⟨c1.trans a1, c2.trans a2, c3.trans a3, c4.trans a4, c5.trans a5, c6.trans a6, c7.trans a7, c8.trans a8, c9.trans a9,
    d1.trans b1, d2.trans b2, d3.trans b3, d4.trans b4, d5.trans b5⟩

/-- a mimic joint stays one when the joint is kept -/
theorem Follows.keep {m m' : Model K P} {i j : ℕ} {ej : JEntry P} {J : P} (h : m.Follows i j ej J) (hj : m.KeepsJoint m' j)
    (hi : m.KeepsJoint m' i) : m'.Follows i j ej J := by
  obtain ⟨p, hp, pm, hf⟩ := h
  obtain ⟨p', hp', -, -, -, -, -, -, pm', -⟩ := hi p hp
  obtain ⟨o, ho, a1, a2, a3, a4, a5, a6, -, a8, -⟩ := hj _ hf
  obtain ⟨x, hx, o1, o2, o3⟩ := a8 _ _ _ rfl
  rw [hx] at hp'; cases hp'
  refine ⟨_, hx, pm' pm, ?_⟩
  rw [ho]
  obtain ⟨⟨oJ, onq, onv, onvx, om⟩, oid, oq, ov, ovx⟩ := o
  simp only at a1 a2 a3 a4 a5 a6 o1 o2 o3
  subst a1 a2 a3 a4 a5 a6 o1 o2 o3
  rfl

theorem keeps_mimic {m m' : Model K P} {k : ℕ} (h : m.KeepsJoint m' k) {e o : JEntry P} (he : m.joints[k]? = some e)
    (ho : m'.joints[k]? = some o) {mid mq mv : ℕ} (hm : o.desc.mimic = some (mid, mq, mv)) :
    ∃ mq' mv', e.desc.mimic = some (mid, mq', mv') := by
  obtain ⟨o', ho', -, -, -, -, -, -, a7, a8, -⟩ := h e he
  rw [ho] at ho'; cases ho'
  cases hc : e.desc.mimic with
  | none => rw [a7 hc] at hm; cases hm
  | some x =>
    obtain ⟨p, -, e1, -, -⟩ := a8 x.1 x.2.1 x.2.2 hc
    rw [e1] at hm; cases hm
    exact ⟨_, _, rfl⟩

/-- the joints that may be turned next -/
theorem MimicOf.follows {m m' : Model K P} {i j : ℕ} {ej : JEntry P} {J : P} (h : MimicOf m m' i j ej J) (i1 : 1 ≤ i) (hij : i < j)
    (hl : m'.joints.length = m.joints.length) (fj : m.FollowsOk j) {j2 : ℕ} (f2 : m.FollowsOk j2) (hne : i ≠ j2) :
    m'.FollowsOk j2 := by
  intro k o mid mq mv ho hm
  by_cases hk : k = j
  · subst hk
    obtain ⟨p, hp, pm, hf⟩ := h.new
    rw [ho] at hf; cases hf; cases hm
    exact ⟨rfl, rfl, rfl, rfl, i1, hij, hne, p, hp, pm, rfl, rfl⟩
  · obtain ⟨e, he⟩ : ∃ e, m.joints[k]? = some e := ⟨_, List.getElem?_eq_getElem (by
      rw [← hl]; exact (List.getElem?_eq_some_iff.1 ho).1)⟩
    obtain ⟨mq', mv', hme⟩ := keeps_mimic (h.other k hk) he ho hm
    obtain ⟨o', ho', -, -, -, a4, a5, -, -, a8, -⟩ := h.other k hk e he
    rw [ho] at ho'; cases ho'
    obtain ⟨-, -, n1, n2, m1, m2, m3, pe, hpe, pm, -⟩ := f2 k e mid mq' mv' he hme
    obtain ⟨-, -, -, -, -, -, m4, -⟩ := fj k e mid mq' mv' he hme
    obtain ⟨p, hp, e1, e2, e3⟩ := a8 _ _ _ hme
    obtain ⟨p', hp', -, -, -, -, -, -, b7, -⟩ := h.other mid m4 pe hpe
    rw [hp] at hp'; cases hp'
    rw [e1] at hm; cases hm
    exact ⟨e2.symm, e3.symm, a4.trans n1, a5.trans n2, m1, m2, m3, p, hp, b7 pm, e2, e3⟩

theorem MimicPairs.tail {m m' : Model K P} {i j : ℕ} {r o : K} {l : List (ℕ × ℕ × K × K)} {ej : JEntry P} {J : P}
    (hp : m.MimicPairs ((i, j, r, o) :: l)) (h : MimicOf m m' i j ej J) (hl : m'.joints.length = m.joints.length) : m'.MimicPairs l := by
  obtain ⟨i1, hij, -⟩ := hp.range _ List.mem_cons_self
  have fj := hp.follows _ List.mem_cons_self
  have nd := hp.nodup
  rw [List.map_cons, List.nodup_cons] at nd
  have hm : ∀ x ∈ l, x ∈ (i, j, r, o) :: l := fun x hx => List.mem_cons_of_mem _ hx
  refine ⟨fun x hx => ?_, fun x hx e he => ?_, nd.2, fun x hx y hy => hp.apart x (hm x hx) y (hm y hy), fun x hx => ?_⟩
  · rw [h.same.1]; exact hp.range x (hm x hx)
  · have key : ∀ k e, k ≠ j → m'.joints[k]? = some e → (∀ e, m.joints[k]? = some e → e.desc.mimic = none) → e.desc.mimic = none := by
      intro k e hk hke hpl
      obtain ⟨e', he'⟩ : ∃ e, m.joints[k]? = some e := ⟨_, List.getElem?_eq_getElem (by
        rw [← hl]; exact (List.getElem?_eq_some_iff.1 hke).1)⟩
      obtain ⟨o', ho', -, -, -, -, -, -, a7, -⟩ := h.other k hk e' he'
      rw [hke] at ho'; cases ho'
      exact a7 (hpl e' he')
    rcases he with he | he
    · exact key _ _ (hp.apart x (hm x hx) _ List.mem_cons_self) he fun e h => hp.plain x (hm x hx) e (Or.inl h)
    · refine key _ _ (fun hc => nd.1 ?_) he fun e h => hp.plain x (hm x hx) e (Or.inr h)
      exact List.mem_map.2 ⟨x, hx, hc⟩
  · exact h.follows i1 hij hl fj (hp.follows x (hm x hx)) (hp.apart _ List.mem_cons_self x (hm x hx))

/-- the loop of `buildMimicModel` -/
theorem each_ok (mk : K → K → P → Option P) : ∀ (l : List (ℕ × ℕ × K × K)) (m : Model K P), Inv m → m.MimicPairs l → (∃ j, m.FollowsOk j) →
    (∀ x ∈ l, ∀ e, m.joints[x.2.1]? = some e → (mk x.2.2.1 x.2.2.2 e.desc.payload).isSome) →
    ∃ m', (∀ junk, mimicEach junk mk m l m = .ok () m') ∧ Inv m' ∧ m.SameTree m' ∧
      (∀ x ∈ l, ∃ e J, m.joints[x.2.1]? = some e ∧ mk x.2.2.1 x.2.2.2 e.desc.payload = some J ∧ m'.Follows x.1 x.2.1 e J) ∧
      (∀ k, k ∉ l.map (·.2.1) → m.KeepsJoint m' k) ∧
      (∀ k, k ∈ m'.mimicking ↔ k ∈ l.map (·.2.1) ∨ k ∈ m.mimicking) ∧ (∀ k, k ∈ m'.mimicked ↔ k ∈ l.map (·.1) ∨ k ∈ m.mimicked)
  | [], m, hI, _, hfo, _ => by
    refine ⟨m, fun _ => rfl, hI, ⟨rfl, rfl, rfl, rfl, rfl, rfl, rfl, rfl, rfl, rfl, rfl, rfl, rfl, rfl⟩, fun x hx => (by cases hx), ?_,
      fun k => (by simp), fun k => (by simp)⟩
    intro k _ e he
    refine ⟨e, he, rfl, rfl, rfl, rfl, rfl, rfl, id, fun mid mq mv hm => ?_, rfl, rfl, rfl, rfl, rfl, rfl, rfl, rfl, rfl⟩
    obtain ⟨j, hf⟩ := hfo
    obtain ⟨rfl, rfl, -, -, -, -, -, p, hp, -, q, v⟩ := hf k e mid mq mv he hm
    exact ⟨p, hp, by rw [hm, q, v], q, v⟩
  | (i, j, r, o) :: l, m, hI, hp, _, hmk => by
    obtain ⟨i1, hij, hj⟩ := hp.range _ List.mem_cons_self
    simp only at i1 hij hj
    obtain ⟨ei, hi⟩ : ∃ e, m.joints[i]? = some e := ⟨_, List.getElem?_eq_getElem (by rw [hI.lens.joints]; omega)⟩
    obtain ⟨ej, hje⟩ : ∃ e, m.joints[j]? = some e := ⟨_, List.getElem?_eq_getElem (by rw [hI.lens.joints]; exact hj)⟩
    have hs : MSetup m i j ei ej := ⟨hI, i1, hij, hj, hi, hje, hp.plain _ List.mem_cons_self ei (Or.inl hi),
      hp.plain _ List.mem_cons_self ej (Or.inr hje), hp.follows _ List.mem_cons_self⟩
    obtain ⟨J, hJ⟩ := Option.isSome_iff_exists.1 (hmk _ List.mem_cons_self ej hje)
    simp only at hJ
    have ho := MSetup.res_mimicOf (J := J) hs
    have hI' := MSetup.res_inv (J := J) hs
    have hl : (MSetup.result m i j ei ej J).joints.length = m.joints.length := by
      rw [hI'.lens.joints, hI.lens.joints, ho.same.1]
    have nd := hp.nodup
    rw [List.map_cons, List.nodup_cons] at nd
    obtain ⟨m', e1, e2, e3, e4, e5, e6, e7⟩ := each_ok mk l _ hI' (hp.tail ho hl) ⟨j, ho.follows i1 hij hl hs.fol hs.fol hij.ne⟩ (by
      intro x hx e he
      have hxj : x.2.1 ≠ j := fun hc => nd.1 (List.mem_map.2 ⟨x, hx, hc⟩)
      obtain ⟨e', he'⟩ : ∃ e, m.joints[x.2.1]? = some e := ⟨_, List.getElem?_eq_getElem (by
        rw [← hl]; exact (List.getElem?_eq_some_iff.1 he).1)⟩
      obtain ⟨o', ho', -, -, a3, -⟩ := ho.other _ hxj e' he'
      rw [he] at ho'; cases ho'
      rw [a3]; exact hmk x (List.mem_cons_of_mem _ hx) e' he')
    refine ⟨m', fun junk => ?_, e2, ho.same.trans e3, ?_, ?_, ?_, ?_⟩
    · rw [mimicEach, MSetup.transform_eq hs junk (mk r o) hJ]; exact e1 junk
    · intro x hx
      rcases List.mem_cons.1 hx with rfl | hx
      · exact ⟨ej, J, hje, hJ, ho.new.keep (e5 _ nd.1) (e5 _ fun hc => by
          obtain ⟨y, hy, hyi⟩ := List.mem_map.1 hc
          exact hp.apart _ List.mem_cons_self y (List.mem_cons_of_mem _ hy) hyi.symm)⟩
      · obtain ⟨e, J', he, hJ', hf⟩ := e4 x hx
        have hxj : x.2.1 ≠ j := fun hc => nd.1 (List.mem_map.2 ⟨x, hx, hc⟩)
        obtain ⟨e', he'⟩ : ∃ e, m.joints[x.2.1]? = some e := ⟨_, List.getElem?_eq_getElem (by
          rw [← hl]; exact (List.getElem?_eq_some_iff.1 he).1)⟩
        obtain ⟨o', ho', -, a2, a3, -, -, a6, -⟩ := ho.other _ hxj e' he'
        rw [he] at ho'; cases ho'
        refine ⟨e', J', he', by rw [← a3]; exact hJ', ?_⟩
        unfold Follows at hf ⊢
        rw [a2, a6] at hf; exact hf
    · intro k hk
      rw [List.map_cons, List.mem_cons, not_or] at hk
      exact (ho.other k hk.1).trans (e5 k hk.2)
    · intro k; rw [e6, ho.mimicking, List.map_cons, List.mem_cons]; tauto
    · intro k; rw [e7, ho.mimicked, List.map_cons, List.mem_cons]; tauto

end Model
end Pin
