import Verif.Model.Srdf
import Verif.LieGroup.Examples
import Verif.Props.Construction
import Verif.Props.Broadphase
import Verif.Props.LieGroup

/-!
# C75: reading an SRDF document
-/

namespace Pin.Srdf
open Pin Model Lie Broadphase

/-! ## Specification -/

section
variable {K P : Type*}

/-- `i` is the frame of the body of this name -/
def BodyFrame (m : Model K P) (name : String) (i : ℕ) : Prop :=
  ∃ f, m.frames[i]? = some f ∧ f.name = name ∧ f.type.testBit 3 = true

/-- the document disables the collisions between the frames of the two objects, in either order -/
def Disabled {L : Type*} (m : Model K P) (doc : List (Tag L)) (i j : ℕ) : Prop :=
  ∃ l1 l2, .disable (some l1) (some l2) ∈ doc ∧ ∃ f1 f2, BodyFrame m l1 f1 ∧ BodyFrame m l2 f2 ∧ f1 ≠ f2 ∧
    ((i = f1 ∧ j = f2) ∨ (i = f2 ∧ j = f1))

/-- joint `id` is the first one of this name -/
def Named (m : Model K P) (name : String) (id : ℕ) : Prop :=
  m.names[id]? = some name ∧ ∀ i < id, m.names[i]? ≠ some name

end

/-- the number of values expected for a joint: an angle for an unbounded revolute joint, its configuration otherwise -/
def RightSize (rub : ℕ → Bool) (id : ℕ) (e : JEntry LJ) (x : List ℝ) : Prop :=
  x.length = if rub id then 1 else e.desc.nq

/-- the configuration of the joint that the values stand for -/
noncomputable def valueAt (rub : ℕ → Bool) (id : ℕ) (x : List ℝ) (k : ℕ) : ℝ :=
  if rub id then (if k = 0 then Real.cos (x.getD 0 0) else Real.sin (x.getD 0 0)) else x.getD k 0

/-- the tag gives the values `x`, in right number, for joint `id` -/
def Gives (rub : ℕ → Bool) (m : Model ℝ LJ) (id : ℕ) (e : JEntry LJ) (x : List ℝ) (t : JTag ℝ) : Prop :=
  ∃ name, t = .joint (some name) (some x) ∧ Named m name id ∧ RightSize rub id e x

/-- `q` is the configuration described by the tags of a group: for each joint, the last well-formed values, or the neutral
configuration if there are none -/
def IsGroup (rub : ℕ → Bool) (m : Model ℝ LJ) (l : List (JTag ℝ)) (q : ℕ → ℝ) : Prop :=
  ∀ id e, 1 ≤ id → m.joints[id]? = some e → ∀ k < e.desc.nq,
    (∀ l1 t l2 x, l = l1 ++ t :: l2 → Gives rub m id e x t → (∀ t' ∈ l2, ∀ y, ¬ Gives rub m id e y t') →
      q (e.idx_q + k) = valueAt rub id x k) ∧
    ((∀ t ∈ l, ∀ y, ¬ Gives rub m id e y t) → q (e.idx_q + k) = neutral m (fun _ => 0) (e.idx_q + k))

/-- every tag of the group has a name, which is not that of the universe, and a value if a joint has this name -/
def GoodJoints (m : Model ℝ LJ) (l : List (JTag ℝ)) : Prop :=
  ∀ n v, .joint n v ∈ l → ∃ name, n = some name ∧ ¬ Named m name 0 ∧ (name ∈ m.names → ∃ x, v = some x)

/-- the joints that are read as an angle have two configuration variables -/
def RubOk (rub : ℕ → Bool) (m : Model ℝ LJ) : Prop :=
  ∀ id e, m.joints[id]? = some e → rub id = true → e.desc.nq = 2

/-! ## Disabled collisions -/

section
variable {K P : Type*} [Field K] [LinearOrder K] [HasEps K]

theorem BodyFrame.unique {p0 : P} {m : Model K P} (h : Reach p0 m) {n : String} {i j : ℕ} (hi : BodyFrame m n i)
    (hj : BodyFrame m n j) : i = j := by
  obtain ⟨f, e1, e2, e3⟩ := hi
  obtain ⟨g, e4, e5, e6⟩ := hj
  refine C04_frames_unique h i j f g e1 e4 (e2.trans e5.symm) fun h0 => ?_
  have := congrArg (fun x => Nat.testBit x 3) h0
  simp [Nat.testBit_and, e3, e6] at this

/-- what `existBodyName` and `getBodyId` answer -/
theorem body_lookup {p0 : P} {m : Model K P} (h : Reach p0 m) (n : String) :
    (m.existFrame n BODY = true ∧ ∃ i, m.getFrameId n BODY = some i ∧ BodyFrame m n i) ∨
    (m.existFrame n BODY = false ∧ ∀ i, ¬ BodyFrame m n i) := by
  obtain ⟨i, h1, -, h3, h4⟩ := C04_getFrameId h n 3
  have e8 : (2 : ℕ) ^ 3 = BODY := rfl
  rw [e8] at h1 h3 h4
  cases hb : m.existFrame n BODY with
  | true => exact .inl ⟨rfl, i, h1, h3 hb⟩
  | false =>
    refine .inr ⟨rfl, fun j hj => ?_⟩
    obtain ⟨f, e1, e2, e3⟩ := hj
    rw [hb] at h4
    exact absurd (h4.2 ⟨f, List.mem_of_getElem? e1, e2, e3⟩) (by simp)

open Classical in
/-- **C75 (disabled collisions).** On a geometry model obtained by any history of calls, reading a document whose tags
`disable_collisions` have their two attributes never fails; it removes exactly the pairs of objects attached to two body frames
which a tag names, in either order, and keeps the others in their order. The objects are unchanged, and the queries on the pairs
remain consistent. -/
theorem C75_pairs {L : Type*} {p0 : P} {m : Model K P} (h : Reach p0 m) {g : GeomModel} (hg : FromHistory g)
    (doc : List (Tag L)) (hd : ∀ a b, .disable a b ∈ doc → a.isSome ∧ b.isSome) :
    ∃ g', removeCollisionPairs m g doc = .ok g' () ∧ g'.objects = g.objects ∧ g'.ngeoms = g.ngeoms ∧
      g'.pairs = g.pairs.filter (fun p => ¬ ∃ o1 o2, g.objects[p.1]? = some o1 ∧ g.objects[p.2]? = some o2 ∧
        Disabled m doc o1.parentFrame o2.parentFrame) ∧
      (∀ k (p : CPair), g'.pairs[k]? = some p → g'.findCollisionPair p = some k ∧ g'.findCollisionPair (p.2, p.1) = some k) := by
  suffices H : ∀ (doc : List (Tag L)) (g : GeomModel), g.Inv → (∀ a b, .disable a b ∈ doc → a.isSome ∧ b.isSome) →
      ∃ g', removeCollisionPairs m g doc = .ok g' () ∧ g'.Inv ∧ g'.objects = g.objects ∧ g'.ngeoms = g.ngeoms ∧
        g'.pairs = g.pairs.filter (fun p => ¬ ∃ o1 o2, g.objects[p.1]? = some o1 ∧ g.objects[p.2]? = some o2 ∧
          Disabled m doc o1.parentFrame o2.parentFrame) by
    obtain ⟨g', e1, e2, e3, e4, e5⟩ := H doc g hg.inv hd
    refine ⟨g', e1, e3, e4, e5, fun k p hk => ?_⟩
    obtain ⟨-, v2, v3⟩ := e2.valid p (List.mem_of_getElem? hk)
    have hdim := e2.dim
    obtain ⟨q1, q2⟩ := e2.pos k p hk
    unfold GeomModel.findCollisionPair
    constructor
    · rw [if_pos ⟨by omega, by omega⟩, q1, if_neg (by omega)]; rfl
    · dsimp only; rw [if_pos ⟨by omega, by omega⟩, q2, if_neg (by omega)]; rfl
  intro doc
  induction doc with
  | nil =>
    intro g hg _
    refine ⟨g, rfl, hg, rfl, rfl, ?_⟩
    rw [List.filter_eq_self.2]
    rintro p -
    simp [Disabled]
  | cons t doc ih =>
    intro g hg hd
    have hd' : ∀ a b, .disable a b ∈ doc → a.isSome ∧ b.isSome := fun a b hm => hd a b (List.mem_cons_of_mem _ hm)
    -- the tag disables nothing
    have skip : removeCollisionPairs m g (t :: doc) = removeCollisionPairs m g doc →
        (∀ i j, Disabled m (t :: doc) i j ↔ Disabled m doc i j) →
        ∃ g', removeCollisionPairs m g (t :: doc) = .ok g' () ∧ g'.Inv ∧ g'.objects = g.objects ∧ g'.ngeoms = g.ngeoms ∧
          g'.pairs = g.pairs.filter (fun p => ¬ ∃ o1 o2, g.objects[p.1]? = some o1 ∧ g.objects[p.2]? = some o2 ∧
            Disabled m (t :: doc) o1.parentFrame o2.parentFrame) := by
      intro e hi
      obtain ⟨g', h1, h2, h3, h4, h5⟩ := ih g hg hd'
      refine ⟨g', e.trans h1, h2, h3, h4, ?_⟩
      rw [h5]
      simp only [hi]
    have other : (∀ a b, t ≠ .disable a b) → ∀ i j, Disabled m (t :: doc) i j ↔ Disabled m doc i j := by
      intro hn i j
      constructor
      · rintro ⟨l1, l2, hm, r⟩
        rcases List.mem_cons.1 hm with e | hm
        · exact absurd e.symm (hn _ _)
        · exact ⟨l1, l2, hm, r⟩
      · rintro ⟨l1, l2, hm, r⟩; exact ⟨l1, l2, List.mem_cons_of_mem _ hm, r⟩
    cases t with
    | group n l => exact skip rfl (other (by simp))
    | rotor l => exact skip rfl (other (by simp))
    | other => exact skip rfl (other (by simp))
    | disable a b =>
      obtain ⟨ha, hb⟩ := hd a b List.mem_cons_self
      obtain ⟨l1, rfl⟩ := Option.isSome_iff_exists.1 ha
      obtain ⟨l2, rfl⟩ := Option.isSome_iff_exists.1 hb
      have none_dis : (¬ ∃ f1 f2, BodyFrame m l1 f1 ∧ BodyFrame m l2 f2 ∧ f1 ≠ f2) →
          ∀ i j, Disabled m (.disable (some l1) (some l2) :: doc) i j ↔ Disabled m doc i j := by
        intro hn i j
        constructor
        · rintro ⟨k1, k2, hm, f1, f2, b1, b2, b3, r⟩
          rcases List.mem_cons.1 hm with e | hm
          · simp only [Tag.disable.injEq, Option.some.injEq] at e
            obtain ⟨rfl, rfl⟩ := e
            exact absurd ⟨f1, f2, b1, b2, b3⟩ hn
          · exact ⟨k1, k2, hm, f1, f2, b1, b2, b3, r⟩
        · rintro ⟨k1, k2, hm, r⟩; exact ⟨k1, k2, List.mem_cons_of_mem _ hm, r⟩
      rcases body_lookup h l1 with ⟨x1, f1, y1, b1⟩ | ⟨x1, b1⟩
      swap
      · exact skip (by rw [removeCollisionPairs, x1]; simp) (none_dis fun ⟨f1, _, hb, _⟩ => b1 f1 hb)
      rcases body_lookup h l2 with ⟨x2, f2, y2, b2⟩ | ⟨x2, b2⟩
      swap
      · exact skip (by rw [removeCollisionPairs, x2]; simp) (none_dis fun ⟨_, f2, _, hb, _⟩ => b2 f2 hb)
      have hstep : removeCollisionPairs m g (.disable (some l1) (some l2) :: doc) =
          if f1 = f2 then removeCollisionPairs m g doc
          else match removeLoop f1 f2 (g.pairs.length + 1) g 0 with
          | .ok g _ => removeCollisionPairs m g doc
          | .throw g => .throw g
          | .ub => .ub := by
        rw [removeCollisionPairs, x1, x2, y1, y2]; rfl
      by_cases hf : f1 = f2
      · refine skip (by rw [hstep, if_pos hf]) (none_dis ?_)
        rintro ⟨u1, u2, c1, c2, c3⟩
        exact c3 ((c1.unique h b1).trans (hf.trans (b2.unique h c2)))
      rw [if_neg hf] at hstep
      obtain ⟨g1, r1, r2, r3, r4, r5⟩ := removeLoop_ok f1 f2 (g.pairs.length + 1) g 0 hg (Nat.zero_le _) (by omega)
      rw [r1] at hstep
      dsimp only at hstep
      obtain ⟨g', h1, h2, h3, h4, h5⟩ := ih g1 r2 hd'
      refine ⟨g', hstep.trans h1, h2, h3.trans r4, h4.trans r3, ?_⟩
      rw [h5, r4, r5, List.take_zero, List.nil_append, List.drop_zero, List.filter_filter]
      apply List.filter_congr
      intro p hp
      obtain ⟨-, v2, v3⟩ := hg.valid p hp
      have o1 : g.objects[p.1]? = some (g.objects[p.1]'(by rw [hg.len]; exact v2)) := List.getElem?_eq_getElem _
      have o2 : g.objects[p.2]? = some (g.objects[p.2]'(by rw [hg.len]; exact v3)) := List.getElem?_eq_getElem _
      generalize g.objects[p.1]'(by rw [hg.len]; exact v2) = w1 at o1
      generalize g.objects[p.2]'(by rw [hg.len]; exact v3) = w2 at o2
      have key : Disabled m (.disable (some l1) (some l2) :: doc) w1.parentFrame w2.parentFrame ↔
          ((w1.parentFrame = f1 ∧ w2.parentFrame = f2) ∨ (w2.parentFrame = f1 ∧ w1.parentFrame = f2)) ∨
          Disabled m doc w1.parentFrame w2.parentFrame := by
        constructor
        · rintro ⟨k1, k2, hm, u1, u2, c1, c2, c3, r⟩
          rcases List.mem_cons.1 hm with e | hm
          · simp only [Tag.disable.injEq, Option.some.injEq] at e
            obtain ⟨rfl, rfl⟩ := e
            obtain rfl := c1.unique h b1
            obtain rfl := c2.unique h b2
            left; tauto
          · exact .inr ⟨k1, k2, hm, u1, u2, c1, c2, c3, r⟩
        · rintro (r | ⟨k1, k2, hm, r⟩)
          · exact ⟨l1, l2, List.mem_cons_self, f1, f2, b1, b2, hf, by tauto⟩
          · exact ⟨k1, k2, List.mem_cons_of_mem _ hm, r⟩
      have hbt : between f1 f2 g.objects p =
          decide ((w1.parentFrame = f1 ∧ w2.parentFrame = f2) ∨ (w2.parentFrame = f1 ∧ w1.parentFrame = f2)) := by
        unfold between; rw [o1, o2]
      have ex : ∀ Q : GObj → GObj → Prop, (∃ a b, g.objects[p.1]? = some a ∧ g.objects[p.2]? = some b ∧ Q a b) ↔ Q w1 w2 := by
        intro Q
        rw [o1, o2]
        constructor
        · rintro ⟨a, b, ea, eb, hQ⟩; cases ea; cases eb; exact hQ
        · exact fun hQ => ⟨w1, w2, rfl, rfl, hQ⟩
      rw [hbt]
      simp only [ex, key]
      by_cases c1 : ((w1.parentFrame = f1 ∧ w2.parentFrame = f2) ∨ (w2.parentFrame = f1 ∧ w1.parentFrame = f2)) <;>
        by_cases c2 : Disabled m doc w1.parentFrame w2.parentFrame <;> simp [c1, c2]

end

/-! ## Names and positions -/

section
variable {K P : Type*} [Field K] [LinearOrder K] [HasEps K]

omit [Field K] [LinearOrder K] [HasEps K] in
theorem Named.unique {m : Model K P} {n : String} {i j : ℕ} (hi : Named m n i) (hj : Named m n j) : i = j := by
  rcases lt_trichotomy i j with h | h | h
  · exact absurd hi.1 (hj.2 i h)
  · exact h
  · exact absurd hj.1 (hi.2 j h)

/-- what `getJointId` answers -/
theorem joint_lookup {p0 : P} {m : Model K P} (h : Reach p0 m) (n : String) :
    (n ∈ m.names ∧ m.getJointId n ≠ m.joints.length ∧ Named m n (m.getJointId n) ∧ ∃ e, m.joints[m.getJointId n]? = some e) ∨
    (n ∉ m.names ∧ m.getJointId n = m.joints.length ∧ ∀ i, ¬ Named m n i) := by
  obtain ⟨h1, h2, h3⟩ := C03_name_lookup h n
  have hl := h.inv.lens.joints
  by_cases hn : n ∈ m.names
  · have hb : m.existJointName n = true := by
      rw [h1]
      obtain ⟨i, hi⟩ := List.mem_iff_getElem?.1 hn
      obtain ⟨hlt, -⟩ := List.getElem?_eq_some_iff.1 hi
      exact ⟨i, h.inv.lens.names ▸ hlt, hi⟩
    obtain ⟨a, b, c⟩ := h3 hb
    exact .inl ⟨hn, by omega, ⟨b, c⟩, _, List.getElem?_eq_getElem (by omega)⟩
  · have hb : m.existJointName n = false := by
      rw [← Bool.not_eq_true, h1]
      rintro ⟨i, -, hi⟩
      exact hn (List.mem_of_getElem? hi)
    exact .inr ⟨hn, by rw [h2 hb, hl], fun i hi => hn (List.mem_of_getElem? hi.1)⟩

/-- segments of different elements of a list of sizes do not meet -/
theorem segments_apart (l : List ℕ) {i j : ℕ} (hij : i < j) : (l.take i).sum + l.getD i 0 ≤ (l.take j).sum := by
  induction l generalizing i j with
  | nil => simp
  | cons a t ih =>
    obtain ⟨j, rfl⟩ : ∃ j', j = j' + 1 := ⟨j - 1, by omega⟩
    cases i with
    | zero => simp
    | succ i =>
      have := ih (i := i) (j := j) (by omega)
      simp only [List.take_succ_cons, List.sum_cons, List.getD_cons_succ]
      omega

theorem conf_at {p0 : P} {m : Model K P} (h : Reach p0 m) {i : ℕ} {e : JEntry P} (he : m.joints[i]? = some e)
    (hn : e.desc.nq ≠ 0) : e.idx_q = (m.nqs.take i).sum ∧ m.nqs.getD i 0 = e.desc.nq := by
  obtain ⟨-, e1, -, -, e2, -⟩ := h.inv.ent i e he
  obtain ⟨hlt, -⟩ := List.getElem?_eq_some_iff.1 he
  have d : m.nqs.getD i 0 = e.desc.nq := by simp [List.getD, e2]
  have := h.inv.idxq i (h.inv.lens.joints ▸ hlt) (by omega)
  rw [List.getD, e1] at this
  exact ⟨this, d⟩

theorem conf_apart {p0 : P} {m : Model K P} (h : Reach p0 m) {i j : ℕ} {e e' : JEntry P} (he : m.joints[i]? = some e)
    (he' : m.joints[j]? = some e') (hij : i ≠ j) {k k' : ℕ} (hk : k < e.desc.nq) (hk' : k' < e'.desc.nq) :
    e.idx_q + k ≠ e'.idx_q + k' := by
  obtain ⟨a1, a2⟩ := conf_at h he (by omega)
  obtain ⟨b1, b2⟩ := conf_at h he' (by omega)
  rcases Nat.lt_or_gt_of_ne hij with hlt | hlt
  · have := segments_apart m.nqs hlt; omega
  · have := segments_apart m.nqs hlt; omega

theorem vel_at {p0 : P} {m : Model K P} (h : Reach p0 m) {i : ℕ} {e : JEntry P} (he : m.joints[i]? = some e)
    (hn : e.desc.nv ≠ 0) : e.idx_v = (m.nvs.take i).sum ∧ m.nvs.getD i 0 = e.desc.nv ∧ e.idx_v + e.desc.nv ≤ m.nv := by
  obtain ⟨-, -, e1, -, -, e2, -⟩ := h.inv.ent i e he
  obtain ⟨hlt, -⟩ := List.getElem?_eq_some_iff.1 he
  have d : m.nvs.getD i 0 = e.desc.nv := by simp [List.getD, e2]
  have := h.inv.idxv i (h.inv.lens.joints ▸ hlt) (by omega)
  rw [List.getD, e1] at this
  refine ⟨this, d, ?_⟩
  have hs := segments_apart m.nvs (i := i) (j := m.nvs.length)
    (by rw [h.inv.lens.nvs, ← h.inv.lens.joints]; exact hlt)
  rw [List.take_length, h.inv.vsum] at hs
  simp only [Option.getD_some] at this
  omega

theorem vel_apart {p0 : P} {m : Model K P} (h : Reach p0 m) {i j : ℕ} {e e' : JEntry P} (he : m.joints[i]? = some e)
    (he' : m.joints[j]? = some e') (hij : i ≠ j) {k k' : ℕ} (hk : k < e.desc.nv) (hk' : k' < e'.desc.nv) :
    e.idx_v + k ≠ e'.idx_v + k' := by
  obtain ⟨a1, a2, -⟩ := vel_at h he (by omega)
  obtain ⟨b1, b2, -⟩ := vel_at h he' (by omega)
  rcases Nat.lt_or_gt_of_ne hij with hlt | hlt
  · have := segments_apart m.nvs hlt; omega
  · have := segments_apart m.nvs hlt; omega

end

/-! ## Reference configurations -/

/-- the step on one joint: its segment gets the value if the number of values is right, and nothing else changes -/
theorem setJoint_spec {m : Model ℝ LJ} {rub : ℕ → Bool} (hr : RubOk rub m) (q : ℕ → ℝ)
    {id : ℕ} (h0 : id ≠ 0) {e : JEntry LJ} (he : m.joints[id]? = some e) (x : List ℝ) :
    ∃ q', setJoint rub m q id x = some q' ∧
      (∀ k < e.desc.nq, RightSize rub id e x → q' (e.idx_q + k) = valueAt rub id x k) ∧
      (∀ j, (¬ RightSize rub id e x ∨ ∀ k < e.desc.nq, j ≠ e.idx_q + k) → q' j = q j) := by
  unfold setJoint
  rw [if_neg h0, he]
  dsimp only
  cases hb : rub id with
  | true =>
    have hnq := hr id e he hb
    by_cases hx : x.length = 1
    · have hs : RightSize rub id e x := by simp [RightSize, hb, hx]
      refine ⟨upd (upd q (e.idx_q + 1) (Real.sin (x.getD 0 0))) e.idx_q (Real.cos (x.getD 0 0)),
        by rw [if_pos rfl, if_neg (by simpa using hx)], ?_, ?_⟩
      · intro k hk _
        rw [hnq] at hk
        unfold valueAt
        rw [hb, if_pos rfl]
        interval_cases k
        · simp [upd]
        · simp [upd]
      · rintro j (hj | hj)
        · exact absurd hs hj
        · have h1 := hj 0 (by omega)
          have h2 := hj 1 (by omega)
          rw [upd, Function.update_of_ne (by omega), upd, Function.update_of_ne h2]
    · have hs : ¬ RightSize rub id e x := by simp [RightSize, hb, hx]
      exact ⟨q, by simp [hx], fun k _ h => absurd h hs, fun _ _ => rfl⟩
  | false =>
    by_cases hx : e.desc.nq = x.length
    · have hs : RightSize rub id e x := by simp [RightSize, hb, hx]
      refine ⟨_, by simp [hx]; rfl, ?_, ?_⟩
      · intro k hk _
        unfold valueAt writeSeg
        rw [hb]
        simp; omega
      · rintro j (hj | hj)
        · exact absurd hs hj
        · unfold writeSeg
          rw [if_neg]
          rintro ⟨a, b⟩
          exact hj (j - e.idx_q) (by omega) (by omega)
    · have hs : ¬ RightSize rub id e x := by simp [RightSize, hb]; omega
      exact ⟨q, by simp [hx], fun k _ h => absurd h hs, fun _ _ => rfl⟩

theorem groupJoints_spec {p0 : LJ} {m : Model ℝ LJ} (h : Reach p0 m) {rub : ℕ → Bool} (hr : RubOk rub m) :
    ∀ (l : List (JTag ℝ)) (q : ℕ → ℝ), GoodJoints m l → ∃ q', groupJoints rub m q l = .ok () q' ∧
      ∀ id e, 1 ≤ id → m.joints[id]? = some e → ∀ k < e.desc.nq,
        (∀ l1 t l2 x, l = l1 ++ t :: l2 → Gives rub m id e x t → (∀ t' ∈ l2, ∀ y, ¬ Gives rub m id e y t') →
          q' (e.idx_q + k) = valueAt rub id x k) ∧
        ((∀ t ∈ l, ∀ y, ¬ Gives rub m id e y t) → q' (e.idx_q + k) = q (e.idx_q + k)) := by
  intro l
  induction l with
  | nil => intro q _; exact ⟨q, rfl, fun id e _ _ k _ => ⟨by simp, fun _ => rfl⟩⟩
  | cons t l ih =>
    intro q hg
    have hg' : GoodJoints m l := fun n v hm => hg n v (List.mem_cons_of_mem _ hm)
    -- the tag turns `q` into `q1`
    have step : ∀ q1, groupJoints rub m q (t :: l) = groupJoints rub m q1 l →
        (∀ id e, 1 ≤ id → m.joints[id]? = some e → ∀ k < e.desc.nq,
          (∀ x, Gives rub m id e x t → q1 (e.idx_q + k) = valueAt rub id x k) ∧
          ((∀ y, ¬ Gives rub m id e y t) → q1 (e.idx_q + k) = q (e.idx_q + k))) →
        ∃ q', groupJoints rub m q (t :: l) = .ok () q' ∧
          ∀ id e, 1 ≤ id → m.joints[id]? = some e → ∀ k < e.desc.nq,
            (∀ l1 t' l2 x, t :: l = l1 ++ t' :: l2 → Gives rub m id e x t' → (∀ t' ∈ l2, ∀ y, ¬ Gives rub m id e y t') →
              q' (e.idx_q + k) = valueAt rub id x k) ∧
            ((∀ t' ∈ t :: l, ∀ y, ¬ Gives rub m id e y t') → q' (e.idx_q + k) = q (e.idx_q + k)) := by
      intro q1 e1 h1
      obtain ⟨q', e2, h2⟩ := ih q1 hg'
      refine ⟨q', e1.trans e2, fun id e hid he k hk => ⟨?_, ?_⟩⟩
      · intro l1 t' l2 x el gx gn
        cases l1 with
        | nil =>
          simp only [List.nil_append, List.cons.injEq] at el
          obtain ⟨rfl, rfl⟩ := el
          rw [(h2 id e hid he k hk).2 gn, (h1 id e hid he k hk).1 x gx]
        | cons a l1 =>
          simp only [List.cons_append, List.cons.injEq] at el
          exact (h2 id e hid he k hk).1 l1 t' l2 x el.2 gx gn
      · intro gn
        rw [(h2 id e hid he k hk).2 fun t' ht => gn t' (List.mem_cons_of_mem _ ht),
          (h1 id e hid he k hk).2 (gn t List.mem_cons_self)]
    cases t with
    | other => exact step q rfl fun id e _ _ k _ => ⟨fun x ⟨_, hx, _⟩ => by simp at hx, fun _ => rfl⟩
    | joint n v =>
      obtain ⟨name, rfl, hu, hv⟩ := hg n v List.mem_cons_self
      rcases joint_lookup h name with ⟨hm, a1, a2, e0, he0⟩ | ⟨-, a1, a2⟩
      · obtain ⟨x, rfl⟩ := hv hm
        have h0 : m.getJointId name ≠ 0 := fun h0 => hu (h0 ▸ a2)
        obtain ⟨q1, b1, b2, b3⟩ := setJoint_spec hr q h0 he0 x
        refine step q1 (by rw [groupJoints, if_pos a1, b1]) fun id e hid he k hk => ⟨?_, ?_⟩
        · rintro y ⟨n', hn, hN, hs⟩
          simp only [JTag.joint.injEq, Option.some.injEq] at hn
          obtain ⟨rfl, rfl⟩ := hn
          obtain rfl := hN.unique a2
          obtain rfl : e0 = e := by rw [he0] at he; simpa using he
          exact b2 k hk hs
        · intro hn
          apply b3
          by_cases hid' : id = m.getJointId name
          · left
            subst hid'
            obtain rfl : e0 = e := by rw [he0] at he; simpa using he
            exact fun hs => hn x ⟨name, rfl, a2, hs⟩
          · right
            intro k' hk'
            exact conf_apart h he he0 hid' hk hk'
      · refine step q (by cases v <;> simp [groupJoints, a1]) fun id e _ _ k _ =>
          ⟨?_, fun _ => rfl⟩
        rintro y ⟨n', hn, hN, -⟩
        simp only [JTag.joint.injEq, Option.some.injEq] at hn
        obtain ⟨rfl, -⟩ := hn
        exact absurd hN (a2 id)

/-- **C75 (reference configurations).** On a model built through the interface, reading a document whose groups have a name, and
whose joint tags have a name (other than the universe) and a value, never fails. The configurations already stored are kept;
a name without group stays absent; and a new name gets the configuration described by the first group of this name: the neutral
configuration, where each joint has the last well-formed values given for it (the sine and cosine of the angle for an unbounded
revolute joint), tags for unknown joints or with a wrong number of values being ignored. -/
theorem C75_reference {p0 : LJ} {m : Model ℝ LJ} (h : Reach p0 m) (hp : PayloadOk m) {rub : ℕ → Bool} (hr : RubOk rub m)
    (junk : ℕ → ℝ) (doc : List (Tag ℝ)) (hd : ∀ n l, .group n l ∈ doc → n.isSome ∧ GoodJoints m l)
    (refs : String → Option (ℕ → ℝ)) :
    ∃ refs', loadReferences rub m junk refs doc = .ok refs' () ∧ ∀ name,
      (∀ q, refs name = some q → refs' name = some q) ∧
      (refs name = none → (∀ l, .group (some name) l ∉ doc) → refs' name = none) ∧
      (refs name = none → ∀ d1 l d2, doc = d1 ++ .group (some name) l :: d2 → (∀ l', .group (some name) l' ∉ d1) →
        ∃ q, refs' name = some q ∧ IsGroup rub m l q) := by
  induction doc generalizing refs with
  | nil => exact ⟨refs, rfl, fun name => ⟨fun _ => id, fun h _ => h, by simp⟩⟩
  | cons t doc ih =>
    have hd' : ∀ n l, .group n l ∈ doc → n.isSome ∧ GoodJoints m l := fun n l hm => hd n l (List.mem_cons_of_mem _ hm)
    have skip : (∀ n l, t ≠ .group n l) → loadReferences rub m junk refs (t :: doc) = loadReferences rub m junk refs doc →
        ∃ refs', loadReferences rub m junk refs (t :: doc) = .ok refs' () ∧ ∀ name,
          (∀ q, refs name = some q → refs' name = some q) ∧
          (refs name = none → (∀ l, .group (some name) l ∉ t :: doc) → refs' name = none) ∧
          (refs name = none → ∀ d1 l d2, t :: doc = d1 ++ .group (some name) l :: d2 → (∀ l', .group (some name) l' ∉ d1) →
            ∃ q, refs' name = some q ∧ IsGroup rub m l q) := by
      intro hn e
      obtain ⟨r', e1, h1⟩ := ih hd' refs
      refine ⟨r', e.trans e1, fun name => ⟨(h1 name).1, ?_, ?_⟩⟩
      · exact fun h0 h2 => (h1 name).2.1 h0 fun l hm => h2 l (List.mem_cons_of_mem _ hm)
      · intro h0 d1 l d2 el hl
        cases d1 with
        | nil => simp only [List.nil_append, List.cons.injEq] at el; exact absurd el.1 (hn _ _)
        | cons a d1 =>
          simp only [List.cons_append, List.cons.injEq] at el
          exact (h1 name).2.2 h0 d1 l d2 el.2 fun l' hm => hl l' (List.mem_cons_of_mem _ hm)
    cases t with
    | disable a b => exact skip (by simp) rfl
    | rotor l => exact skip (by simp) rfl
    | other => exact skip (by simp) rfl
    | group n l =>
      obtain ⟨hn, hl⟩ := hd n l List.mem_cons_self
      obtain ⟨nm, rfl⟩ := Option.isSome_iff_exists.1 hn
      obtain ⟨q, eq, hq⟩ := groupJoints_spec h hr l (neutral m junk) hl
      have hgq : IsGroup rub m l q := by
        intro id e hid he k hk
        refine ⟨(hq id e hid he k hk).1, fun hn => ?_⟩
        rw [(hq id e hid he k hk).2 hn]
        apply (C27_output_content (ε := 0) h hp 0 0 0 0 junk (fun _ => 0)).2.2.2
        obtain ⟨a1, a2⟩ := conf_at h he (by omega)
        have hs := segments_apart m.nqs (i := id) (j := m.nqs.length) (by
          obtain ⟨hlt, -⟩ := List.getElem?_eq_some_iff.1 he
          rw [h.inv.lens.nqs, ← h.inv.lens.joints]; exact hlt)
        rw [List.take_length, h.inv.qsum] at hs
        omega
      obtain ⟨r', e1, h1⟩ := ih hd' (if (refs nm).isSome then refs else Function.update refs nm (some q))
      refine ⟨r', by rw [loadReferences, eq]; exact e1, fun name => ⟨?_, ?_, ?_⟩⟩
      · intro q0 h0
        apply (h1 name).1
        split
        · exact h0
        · rename_i hs
          rw [Function.update_of_ne]
          · exact h0
          · rintro rfl; simp [h0] at hs
      · intro h0 h2
        refine (h1 name).2.1 ?_ fun l hm => h2 l (List.mem_cons_of_mem _ hm)
        have hne : name ≠ nm := by rintro rfl; exact h2 l List.mem_cons_self
        split
        · exact h0
        · rw [Function.update_of_ne hne, h0]
      · intro h0 d1 l' d2 el hl'
        cases d1 with
        | nil =>
          simp only [List.nil_append, List.cons.injEq, Tag.group.injEq, Option.some.injEq] at el
          obtain ⟨⟨rfl, rfl⟩, rfl⟩ := el
          refine ⟨q, (h1 nm).1 q ?_, hgq⟩
          rw [h0]; simp
        | cons a d1 =>
          simp only [List.cons_append, List.cons.injEq] at el
          obtain ⟨rfl, el⟩ := el
          have hne : name ≠ nm := by rintro rfl; exact hl' l List.mem_cons_self
          refine (h1 name).2.2 ?_ d1 l' d2 el fun l' hm => hl' l' (List.mem_cons_of_mem _ hm)
          split
          · exact h0
          · rw [Function.update_of_ne hne, h0]

/-! ## Rotor parameters -/

section
variable {K P : Type*}

/-- every tag has its three attributes, and does not name the universe or a joint with several degrees of freedom -/
def GoodRotors (m : Model K P) (l : List (RTag K)) : Prop :=
  ∀ n a b, .joint n a b ∈ l → ∃ name mass gear, n = some name ∧ a = some mass ∧ b = some gear ∧ ¬ Named m name 0 ∧
    ∀ id e, Named m name id → m.joints[id]? = some e → e.desc.nv = 1

/-- the tag gives this mass and gear ratio for joint `id` -/
def Rotor (m : Model K P) (id : ℕ) (mass gear : K) (t : RTag K) : Prop :=
  ∃ name, t = .joint (some name) (some mass) (some gear) ∧ Named m name id

open Classical in
/-- the contribution of a tag to the apparent inertia of joint `id` -/
noncomputable def apparent [CommRing K] (m : Model K P) (id : ℕ) (t : RTag K) : K :=
  match t with
  | .joint (some name) (some mass) (some gear) => if Named m name id then mass * gear ^ 2 else 0
  | _ => 0

end

section
variable {K P : Type*} [Field K] [LinearOrder K] [HasEps K]

/-- `m'` is `m`, but for the three vectors of rotor parameters, which have kept their length -/
structure SameBut (m m' : Model K P) : Prop where
  eq : m' = { m with armature := m'.armature, rotorInertia := m'.rotorInertia, rotorGearRatio := m'.rotorGearRatio }
  la : m'.armature.length = m.armature.length
  li : m'.rotorInertia.length = m.rotorInertia.length
  lg : m'.rotorGearRatio.length = m.rotorGearRatio.length

omit [Field K] [LinearOrder K] [HasEps K] in
theorem getD_set' (l : List K) (i j : ℕ) (x d : K) (hi : i < l.length) :
    (l.set i x).getD j d = if i = j then x else l.getD j d := by
  simp only [List.getD, List.getElem?_set]
  by_cases h : i = j
  · subst h; simp [hi]
  · simp [h]

theorem rotorJoints_spec {p0 : P} {m0 : Model K P} (h : Reach p0 m0) : ∀ (l : List (RTag K)) (m : Model K P), SameBut m0 m →
    GoodRotors m0 l → ∃ m', rotorJoints m l = .ok m' () ∧ SameBut m0 m' ∧
      ∀ id e, 1 ≤ id → m0.joints[id]? = some e → ∀ k < e.desc.nv,
        m'.armature.getD (e.idx_v + k) 0 = m.armature.getD (e.idx_v + k) 0 + (l.map (apparent m0 id)).sum ∧
        (∀ l1 t l2 mass gear, l = l1 ++ t :: l2 → Rotor m0 id mass gear t → (∀ t' ∈ l2, ∀ a b, ¬ Rotor m0 id a b t') →
          m'.rotorInertia.getD (e.idx_v + k) 0 = mass ∧ m'.rotorGearRatio.getD (e.idx_v + k) 0 = gear) ∧
        ((∀ t ∈ l, ∀ a b, ¬ Rotor m0 id a b t) →
          m'.rotorInertia.getD (e.idx_v + k) 0 = m.rotorInertia.getD (e.idx_v + k) 0 ∧
          m'.rotorGearRatio.getD (e.idx_v + k) 0 = m.rotorGearRatio.getD (e.idx_v + k) 0) := by
  intro l
  induction l with
  | nil => intro m hm _; exact ⟨m, rfl, hm, fun id e _ _ k _ => ⟨by simp, by simp, fun _ => ⟨rfl, rfl⟩⟩⟩
  | cons t l ih =>
    intro m hm hg
    have hg' : GoodRotors m0 l := fun n a b hm => hg n a b (List.mem_cons_of_mem _ hm)
    have step : ∀ m1, rotorJoint m t = .ok m1 () → SameBut m0 m1 →
        (∀ id e, 1 ≤ id → m0.joints[id]? = some e → ∀ k < e.desc.nv,
          m1.armature.getD (e.idx_v + k) 0 = m.armature.getD (e.idx_v + k) 0 + apparent m0 id t ∧
          (∀ mass gear, Rotor m0 id mass gear t →
            m1.rotorInertia.getD (e.idx_v + k) 0 = mass ∧ m1.rotorGearRatio.getD (e.idx_v + k) 0 = gear) ∧
          ((∀ a b, ¬ Rotor m0 id a b t) →
            m1.rotorInertia.getD (e.idx_v + k) 0 = m.rotorInertia.getD (e.idx_v + k) 0 ∧
            m1.rotorGearRatio.getD (e.idx_v + k) 0 = m.rotorGearRatio.getD (e.idx_v + k) 0)) →
        ∃ m', rotorJoints m (t :: l) = .ok m' () ∧ SameBut m0 m' ∧
          ∀ id e, 1 ≤ id → m0.joints[id]? = some e → ∀ k < e.desc.nv,
            m'.armature.getD (e.idx_v + k) 0 = m.armature.getD (e.idx_v + k) 0 + ((t :: l).map (apparent m0 id)).sum ∧
            (∀ l1 t' l2 mass gear, t :: l = l1 ++ t' :: l2 → Rotor m0 id mass gear t' →
              (∀ t' ∈ l2, ∀ a b, ¬ Rotor m0 id a b t') →
              m'.rotorInertia.getD (e.idx_v + k) 0 = mass ∧ m'.rotorGearRatio.getD (e.idx_v + k) 0 = gear) ∧
            ((∀ t' ∈ t :: l, ∀ a b, ¬ Rotor m0 id a b t') →
              m'.rotorInertia.getD (e.idx_v + k) 0 = m.rotorInertia.getD (e.idx_v + k) 0 ∧
              m'.rotorGearRatio.getD (e.idx_v + k) 0 = m.rotorGearRatio.getD (e.idx_v + k) 0) := by
      intro m1 e1 s1 h1
      obtain ⟨m', e2, s2, h2⟩ := ih m1 s1 hg'
      refine ⟨m', by rw [rotorJoints, e1]; exact e2, s2, fun id e hid he k hk => ?_⟩
      obtain ⟨a1, a2, a3⟩ := h1 id e hid he k hk
      obtain ⟨b1, b2, b3⟩ := h2 id e hid he k hk
      refine ⟨by rw [b1, a1, List.map_cons, List.sum_cons, add_assoc], ?_, ?_⟩
      · intro l1 t' l2 mass gear el gx gn
        cases l1 with
        | nil =>
          simp only [List.nil_append, List.cons.injEq] at el
          obtain ⟨rfl, rfl⟩ := el
          rw [(b3 gn).1, (b3 gn).2]
          exact a2 mass gear gx
        | cons a l1 =>
          simp only [List.cons_append, List.cons.injEq] at el
          exact b2 l1 t' l2 mass gear el.2 gx gn
      · intro gn
        have := b3 fun t' ht => gn t' (List.mem_cons_of_mem _ ht)
        rw [this.1, this.2]
        exact a3 (gn t List.mem_cons_self)
    cases t with
    | other => exact step m rfl hm fun id e _ _ k _ => ⟨by simp [apparent], fun a b ⟨_, hx, _⟩ => by simp at hx, fun _ => ⟨rfl, rfl⟩⟩
    | joint n a b =>
      obtain ⟨name, mass, gear, rfl, rfl, rfl, hu, hv⟩ := hg n a b List.mem_cons_self
      have gj : m.getJointId name = m0.getJointId name := by rw [hm.eq]; rfl
      have jj : m.joints = m0.joints := by rw [hm.eq]
      rcases joint_lookup h name with ⟨-, a1, a2, e0, he0⟩ | ⟨-, a1, a2⟩
      · have h0 : m0.getJointId name ≠ 0 := fun h0 => hu (h0 ▸ a2)
        have nv1 := hv _ e0 a2 he0
        obtain ⟨-, -, c3⟩ := vel_at h he0 (by omega)
        have l1 : e0.idx_v < m.armature.length := by rw [hm.la, h.inv.lens.armature]; omega
        have l2 : e0.idx_v < m.rotorInertia.length := by rw [hm.li, h.inv.lens.rotorInertia]; omega
        have l3 : e0.idx_v < m.rotorGearRatio.length := by rw [hm.lg, h.inv.lens.rotorGearRatio]; omega
        refine step { m with
          armature := m.armature.set e0.idx_v (m.armature.getD e0.idx_v 0 + mass * gear * gear)
          rotorInertia := m.rotorInertia.set e0.idx_v mass
          rotorGearRatio := m.rotorGearRatio.set e0.idx_v gear } ?_ ?_ ?_
        · unfold rotorJoint
          simp only [gj, jj, if_pos a1, if_neg h0, he0]
          rw [if_neg (by simp [nv1])]
        · refine ⟨?_, ?_, ?_, ?_⟩
          · conv_lhs => rw [hm.eq]
          · simpa using hm.la
          · simpa using hm.li
          · simpa using hm.lg
        · intro id e hid he k hk
          dsimp only
          by_cases hid' : id = m0.getJointId name
          · subst hid'
            obtain rfl : e0 = e := by rw [he0] at he; simpa using he
            obtain rfl : k = 0 := by omega
            have hap : apparent m0 (m0.getJointId name) (.joint (some name) (some mass) (some gear)) = mass * gear ^ 2 := by
              unfold apparent; exact if_pos a2
            refine ⟨?_, ?_, ?_⟩
            · rw [getD_set' _ _ _ _ _ l1, if_pos (by omega), hap, add_zero]; ring
            · rintro a b ⟨n', hn, hN⟩
              simp only [RTag.joint.injEq, Option.some.injEq] at hn
              obtain ⟨rfl, rfl, rfl⟩ := hn
              rw [getD_set' _ _ _ _ _ l2, getD_set' _ _ _ _ _ l3]
              simp
            · exact fun hn => absurd ⟨name, rfl, a2⟩ (hn mass gear)
          · have hne : e0.idx_v ≠ e.idx_v + k := by
              have := vel_apart h he0 he (Ne.symm hid') (k := 0) (k' := k) (by omega) hk
              omega
            have hap : apparent m0 id (.joint (some name) (some mass) (some gear)) = 0 := by
              unfold apparent; exact if_neg fun hN => hid' (hN.unique a2)
            refine ⟨?_, ?_, ?_⟩
            · rw [getD_set' _ _ _ _ _ l1, if_neg hne, hap, add_zero]
            · rintro a b ⟨n', hn, hN⟩
              simp only [RTag.joint.injEq, Option.some.injEq] at hn
              obtain ⟨rfl, rfl, rfl⟩ := hn
              exact absurd (hN.unique a2) hid'
            · intro _
              rw [getD_set' _ _ _ _ _ l2, getD_set' _ _ _ _ _ l3, if_neg hne, if_neg hne]
              exact ⟨rfl, rfl⟩
      · refine step m ?_ hm fun id e _ _ k _ => ⟨?_, ?_, fun _ => ⟨rfl, rfl⟩⟩
        · unfold rotorJoint
          simp only [gj, jj]
          rw [if_neg (by simpa using a1)]
        · have hap : apparent m0 id (.joint (some name) (some mass) (some gear)) = 0 := by
            unfold apparent; exact if_neg (a2 id)
          rw [hap, add_zero]
        · rintro a b ⟨n', hn, hN⟩
          simp only [RTag.joint.injEq, Option.some.injEq] at hn
          obtain ⟨rfl, rfl, rfl⟩ := hn
          exact absurd hN (a2 id)

/-- **C75 (rotor parameters).** On a model built through the interface, reading a document whose first tag `rotor_params` is
well formed never fails. It changes only the armature and the two vectors of rotor parameters. The armature of a degree of freedom
increases by the sum of `mass * gear_ratio²` over the tags that name its joint; its rotor inertia and gear ratio become those of
the last of these tags, and are unchanged if there is none. -/
theorem C75_rotor {p0 : P} {m : Model K P} (h : Reach p0 m) (d1 d2 : List (Tag K)) (l : List (RTag K))
    (h1 : ∀ l', .rotor l' ∉ d1) (hl : GoodRotors m l) :
    ∃ m', loadRotorParameters m (d1 ++ .rotor l :: d2) = .ok m' () ∧ SameBut m m' ∧
      ∀ id e, 1 ≤ id → m.joints[id]? = some e → ∀ k < e.desc.nv,
        m'.armature.getD (e.idx_v + k) 0 = m.armature.getD (e.idx_v + k) 0 + (l.map (apparent m id)).sum ∧
        (∀ l1 t l2 mass gear, l = l1 ++ t :: l2 → Rotor m id mass gear t → (∀ t' ∈ l2, ∀ a b, ¬ Rotor m id a b t') →
          m'.rotorInertia.getD (e.idx_v + k) 0 = mass ∧ m'.rotorGearRatio.getD (e.idx_v + k) 0 = gear) ∧
        ((∀ t ∈ l, ∀ a b, ¬ Rotor m id a b t) →
          m'.rotorInertia.getD (e.idx_v + k) 0 = m.rotorInertia.getD (e.idx_v + k) 0 ∧
          m'.rotorGearRatio.getD (e.idx_v + k) 0 = m.rotorGearRatio.getD (e.idx_v + k) 0) := by
  have hskip : loadRotorParameters m (d1 ++ .rotor l :: d2) = rotorJoints m l := by
    induction d1 with
    | nil => rfl
    | cons t d1 ih =>
      have := ih fun l' hm => h1 l' (List.mem_cons_of_mem _ hm)
      cases t with
      | rotor l' => exact absurd List.mem_cons_self (h1 l')
      | _ => exact this
  rw [hskip]
  exact rotorJoints_spec h l m ⟨rfl, rfl, rfl, rfl⟩ hl

omit [LinearOrder K] [HasEps K] in
theorem rotorJoints_append (l1 l2 : List (RTag K)) : ∀ (m m1 : Model K P), rotorJoints m l1 = .ok m1 () →
    rotorJoints m (l1 ++ l2) = rotorJoints m1 l2 := by
  induction l1 with
  | nil => intro m m1 e; cases e; rfl
  | cons t l1 ih =>
    intro m m1 e
    rw [rotorJoints] at e
    rw [List.cons_append, rotorJoints]
    cases ht : rotorJoint m t with
    | ok m2 _ => rw [ht] at e; exact ih m2 m1 e
    | throw m2 => rw [ht] at e; cases e
    | ub => rw [ht] at e; cases e

/-- the tag lacks an attribute, or names a joint with zero or several degrees of freedom -/
def BadRotor (m : Model K P) : RTag K → Prop
  | .other => False
  | .joint (some name) (some _) (some _) => ∃ id e, 1 ≤ id ∧ Named m name id ∧ m.joints[id]? = some e ∧ e.desc.nv ≠ 1
  | .joint _ _ _ => True

/-- **C75 (rotor parameters, refused).** A tag without one of its attributes, or for a joint that does not have exactly one degree of
freedom, makes the reading throw, wherever it is; what is not a rotor parameter is unchanged. -/
theorem C75_rotor_refused {p0 : P} {m : Model K P} (h : Reach p0 m) (d1 d2 : List (Tag K)) (l1 l2 : List (RTag K)) (t : RTag K)
    (h1 : ∀ l', .rotor l' ∉ d1) (hl : GoodRotors m l1) (ht : BadRotor m t) :
    ∃ m', loadRotorParameters m (d1 ++ .rotor (l1 ++ t :: l2) :: d2) = .throw m' ∧ SameBut m m' := by
  have hskip : loadRotorParameters m (d1 ++ .rotor (l1 ++ t :: l2) :: d2) = rotorJoints m (l1 ++ t :: l2) := by
    induction d1 with
    | nil => rfl
    | cons t d1 ih =>
      have := ih fun l' hm => h1 l' (List.mem_cons_of_mem _ hm)
      cases t with
      | rotor l' => exact absurd List.mem_cons_self (h1 l')
      | _ => exact this
  obtain ⟨m1, e1, hs, -⟩ := rotorJoints_spec h l1 m ⟨rfl, rfl, rfl, rfl⟩ hl
  refine ⟨m1, ?_, hs⟩
  rw [hskip, rotorJoints_append l1 _ m m1 e1, rotorJoints]
  have key : rotorJoint m1 t = .throw m1 := by
    match t, ht with
    | .joint (some name) (some mass) (some gear), ⟨id, e, i1, hn, he, hv⟩ =>
      have gj : m1.getJointId name = m.getJointId name := by rw [hs.eq]; rfl
      have jj : m1.joints = m.joints := by rw [hs.eq]
      rcases joint_lookup h name with ⟨-, a1, a2, -⟩ | ⟨-, -, a2⟩
      · have hid := a2.unique hn
        unfold rotorJoint
        simp only [gj, jj, if_pos a1]
        rw [hid, if_neg (by omega), he]
        dsimp only
        rw [if_pos hv]
      · exact absurd hn (a2 id)
    | .joint none _ _, _ => rfl
    | .joint (some _) none _, _ => rfl
    | .joint (some _) (some _) none, _ => rfl
  rw [key]

omit [LinearOrder K] [HasEps K] in
/-- a document without tag `rotor_params` is rejected, and the model is unchanged -/
theorem C75_rotor_missing (m : Model K P) (doc : List (Tag K)) (h : ∀ l, .rotor l ∉ doc) :
    loadRotorParameters m doc = .throw m := by
  induction doc with
  | nil => rfl
  | cons t doc ih =>
    have := ih fun l hm => h l (List.mem_cons_of_mem _ hm)
    cases t with
    | rotor l => exact absurd List.mem_cons_self (h l)
    | _ => exact this

end

/-! ## Examples and counterexamples -/

namespace Ex

/-- calls that build a model with two bodies -/
def calls : List (Op ℚ Unit) := [.addJoint (Pin.Ex.ja 0 1 "a"), .addJointFrame 1 none, .addBodyFrame "A" 1 1 none,
  .addJoint (Pin.Ex.ja 1 1 "b"), .addJointFrame 2 none, .addBodyFrame "B" 2 1 none]

/-- the same with a joint of six degrees of freedom -/
def callsF : List (Op ℚ Unit) := [.addJoint (Pin.Ex.ja 0 6 "a"), .addJoint (Pin.Ex.ja 1 1 "b")]

/-- the bodies `A` and `B` have the frames 2 and 4 -/
def ms : Model ℚ Unit := (Pin.Ex.run (empty ()) calls).getD (empty ())

theorem ms_reach : Reach () ms := Pin.Ex.reach_run calls (empty ()) ms .init rfl rfl

/-- an object on `B`, two on `A`, and all the pairs of objects of different joints -/
def gops : List GOp := [.addObject 0 ⟨"x", 4, 2, false⟩, .addObject 0 ⟨"y", 2, 1, false⟩, .addObject 0 ⟨"z", 2, 1, false⟩,
  .addObject 0 ⟨"t", 1, 0, false⟩, .addAll]

def gm : GeomModel := (runG GeomModel.empty gops).getD GeomModel.empty

theorem gm_from : FromHistory gm :=
  ⟨gops, gm, by intro op hop; simp only [gops, List.mem_cons, List.not_mem_nil, or_false] at hop
                rcases hop with rfl | rfl | rfl | rfl | rfl <;> trivial, rfl, rfl, rfl⟩

/-- C75_pairs is not vacuous: two pairs out of five are removed -/
example : gm.pairs = [(0, 1), (0, 2), (0, 3), (1, 3), (2, 3)] ∧
    ∃ g', removeCollisionPairs ms gm [Tag.disable (K := ℚ) (some "A") (some "B"), .disable (some "A") (some "unknown")] = .ok g' () ∧
      g'.pairs = [(0, 3), (1, 3), (2, 3)] := ⟨rfl, _, rfl, rfl⟩

/-- C75_rotor_refused is not vacuous: a free joint is refused, after a tag that is read -/
example : ∃ (m : Model ℚ Unit), Reach () m ∧ GoodRotors m [.joint (some "b") (some 3) (some 2)] ∧
    BadRotor m (.joint (some "a") (some 1) (some 2)) := by
  refine ⟨(Pin.Ex.run (empty ()) callsF).getD (empty ()), Pin.Ex.reach_run callsF (empty ()) _ .init rfl rfl, ?_, ?_⟩
  · intro n a b hm
    simp only [List.mem_cons, RTag.joint.injEq, List.not_mem_nil, or_false] at hm
    obtain ⟨rfl, rfl, rfl⟩ := hm
    refine ⟨_, _, _, rfl, rfl, rfl, fun hN => ?_, fun id e hN he => ?_⟩
    · have := hN.1; revert this; decide
    · have h2 : Named ((Pin.Ex.run (empty ()) callsF).getD (empty ())) "b" 2 := ⟨rfl, by decide⟩
      obtain rfl := hN.unique h2
      have : e = _ := (Option.some.inj he).symm
      rw [this]; rfl
  · exact ⟨1, _, le_rfl, ⟨rfl, by decide⟩, rfl, by decide⟩

/-- C75_rotor is not vacuous: two tags for the same joint, a tag for an unknown one -/
example : GoodRotors ms [.joint (some "b") (some 3) (some 2), .joint (some "c") (some 1) (some 1), .other,
    .joint (some "b") (some 1) (some 5)] ∧
    ∃ m', loadRotorParameters ms [.other, .rotor [.joint (some "b") (some 3) (some 2), .joint (some "c") (some 1) (some 1), .other,
      .joint (some "b") (some 1) (some 5)]] = .ok m' () ∧ m'.armature = [0, 37] ∧ m'.rotorInertia = [0, 1] ∧
      m'.rotorGearRatio = [1, 5] := by
  refine ⟨?_, _, rfl, by decide +kernel, by decide +kernel, by decide +kernel⟩
  have n0 : ms.names = ["universe", "a", "b"] := rfl
  have nj : ms.joints.map (·.desc.nv) = [0, 1, 1] := rfl
  have key : ∀ name, name ≠ "universe" → ¬ Named ms name 0 ∧ ∀ id e, Named ms name id → ms.joints[id]? = some e → e.desc.nv = 1 := by
    intro name hn
    have h0 : ¬ Named ms name 0 := fun h => hn (by simpa [n0] using h.1.symm)
    refine ⟨h0, fun id e hN he => ?_⟩
    have h1 : (ms.joints.map (·.desc.nv))[id]? = some e.desc.nv := by rw [List.getElem?_map, he]; rfl
    rw [nj] at h1
    match id, h1, hN with
    | 0, _, hN => exact absurd hN h0
    | 1, h1, _ => simpa using h1.symm
    | 2, h1, _ => simpa using h1.symm
  intro n a b hm
  simp only [List.mem_cons, RTag.joint.injEq, reduceCtorEq, List.not_mem_nil, or_false, false_or] at hm
  rcases hm with ⟨rfl, rfl, rfl⟩ | ⟨rfl, rfl, rfl⟩ | ⟨rfl, rfl, rfl⟩
  · exact ⟨_, _, _, rfl, rfl, rfl, key "b" (by decide)⟩
  · exact ⟨_, _, _, rfl, rfl, rfl, key "c" (by decide)⟩
  · exact ⟨_, _, _, rfl, rfl, rfl, key "b" (by decide)⟩

/-- joint 2 of `modL` is an unbounded revolute joint -/
def wheel (id : ℕ) : Bool := id == 2

theorem wheel_ok : RubOk wheel Pin.Ex.modL := by
  intro id e he hb
  obtain rfl : id = 2 := by simpa [wheel] using hb
  rw [Pin.Ex.modL_joints] at he
  simp only [List.getElem?_cons_succ, List.getElem?_cons_zero, Option.some.injEq] at he
  rw [← he]

theorem modL_names : Pin.Ex.modL.names = ["universe", "root", "wheel", "mimic", "multi", "slider"] := rfl

/-- C75_reference is not vacuous: a group with an angle, a slider set twice, and a tag with a wrong number of values -/
example : ∃ doc : List (Tag ℝ), (∀ n l, .group n l ∈ doc → n.isSome ∧ GoodJoints Pin.Ex.modL l) ∧
    ∃ l, .group (some "home") l ∈ doc ∧ l.length = 4 :=
  ⟨[.group (some "home") [.joint (some "slider") (some [1]), .joint (some "wheel") (some [0]), .joint (some "slider") (some [2]),
    .joint (some "root") (some [1, 2])]], by
    intro n l hm
    simp only [List.mem_cons, Tag.group.injEq, List.not_mem_nil, or_false] at hm
    obtain ⟨rfl, rfl⟩ := hm
    refine ⟨rfl, fun n v hm => ?_⟩
    have key : ∀ name, name ≠ "universe" → ¬ Named Pin.Ex.modL name 0 := by
      intro name hn h
      exact hn (by simpa [modL_names] using h.1.symm)
    simp only [List.mem_cons, JTag.joint.injEq, List.not_mem_nil, or_false] at hm
    rcases hm with ⟨rfl, rfl⟩ | ⟨rfl, rfl⟩ | ⟨rfl, rfl⟩ | ⟨rfl, rfl⟩
    all_goals exact ⟨_, rfl, key _ (by decide), fun _ => ⟨_, rfl⟩⟩, _, List.mem_cons_self, rfl⟩

theorem slider_lookup : Pin.Ex.modL.getJointId "slider" = 5 := rfl

theorem set_slider (rub : ℕ → Bool) (hr : rub 5 = false) (q : ℕ → ℝ) (x : ℝ) (t : List (JTag ℝ)) :
    groupJoints rub Pin.Ex.modL q (.joint (some "slider") (some [x]) :: t) =
      groupJoints rub Pin.Ex.modL (writeSeg q 17 1 fun k => [x].getD k 0) t := by
  rw [groupJoints, if_pos (by rw [slider_lookup, Pin.Ex.modL_joints]; simp), slider_lookup]
  simp only [setJoint, Pin.Ex.modL_joints, hr]
  rfl

end Ex

/-- **A group that appears twice.** The program warns that "only the last instance" is used; the first one is kept. Two groups of
the same name give 1 then 2 to the joint "slider": the stored configuration has 1. -/
theorem C75_duplicate_counterexample : ∃ refs q,
    loadReferences Ex.wheel Pin.Ex.modL (fun _ => 0) (fun _ => none) [.group (some "home") [.joint (some "slider") (some [1])],
      .group (some "home") [.joint (some "slider") (some [2])]] = .ok refs () ∧ refs "home" = some q ∧ q 17 = 1 := by
  refine ⟨Function.update (fun _ => none) "home" (some (writeSeg (neutral Pin.Ex.modL fun _ => 0) 17 1 fun k => [(1 : ℝ)].getD k 0)),
    writeSeg (neutral Pin.Ex.modL fun _ => 0) 17 1 fun k => [(1 : ℝ)].getD k 0, ?_, ?_, ?_⟩
  · rw [loadReferences, Ex.set_slider _ rfl, groupJoints]
    dsimp only
    rw [loadReferences, Ex.set_slider _ rfl, groupJoints]
    simp [loadReferences]
  · simp
  · simp [writeSeg]

/-- **A configuration outside the configuration space is stored.** The values are copied without normalisation: for a free-flyer,
the group may give the quaternion `0 0 0 2`, and the stored reference configuration has a quaternion of norm 2. -/
theorem C75_unit_counterexample : ∃ refs q,
    loadReferences Ex.wheel Pin.Ex.modL (fun _ => 0) (fun _ => none)
      [.group (some "home") [.joint (some "root") (some [0, 0, 0, 0, 0, 0, 2])]] = .ok refs () ∧ refs "home" = some q ∧
    (⟨.se3, 0, 0⟩ : Slot) ∈ slotsOf Pin.Ex.modL ∧ ¬ LG.Unit .se3 (seg q 0) := by
  have e : groupJoints Ex.wheel Pin.Ex.modL (neutral Pin.Ex.modL fun _ => 0) [.joint (some "root") (some [0, 0, 0, 0, 0, 0, 2])] =
      .ok () (writeSeg (neutral Pin.Ex.modL fun _ => 0) 0 7 fun k => [(0 : ℝ), 0, 0, 0, 0, 0, 2].getD k 0) := by
    have hr : Pin.Ex.modL.getJointId "root" = 1 := rfl
    rw [groupJoints, if_pos (by rw [hr, Pin.Ex.modL_joints]; simp), hr]
    simp only [setJoint, Pin.Ex.modL_joints]
    rfl
  refine ⟨Function.update (fun _ => none) "home" (some (writeSeg (neutral Pin.Ex.modL fun _ => 0) 0 7
      fun k => [(0 : ℝ), 0, 0, 0, 0, 0, 2].getD k 0)),
    writeSeg (neutral Pin.Ex.modL fun _ => 0) 0 7 fun k => [(0 : ℝ), 0, 0, 0, 0, 0, 2].getD k 0, ?_, ?_, ?_, ?_⟩
  · rw [loadReferences, e]; rfl
  · simp
  · rw [Pin.Ex.modL_slots]; simp
  · simp [LG.Unit, LG.unitPart, LG.sqn, seg, writeSeg, Finset.sum_range_succ]
    norm_num

/-- **A tag that names the universe** is undefined behaviour in both readers: joint 0 is found, and its position in the vectors
is -1. -/
theorem C75_universe_counterexample :
    loadReferences Ex.wheel Pin.Ex.modL (fun _ => 0) (fun _ => none) [.group (some "home") [.joint (some "universe") (some [1])]] = .ub ∧
    loadRotorParameters Ex.ms [.rotor [.joint (some "universe") (some 1) (some 1)]] = .ub := by
  refine ⟨?_, rfl⟩
  have hr : Pin.Ex.modL.getJointId "universe" = 0 := rfl
  rw [loadReferences, groupJoints, if_pos (by rw [hr, Pin.Ex.modL_joints]; simp), hr]
  simp [setJoint]

/-- **Reading the rotor parameters twice** adds the apparent inertia twice to the armature. -/
theorem C75_rotor_twice_counterexample : ∃ m' m'',
    loadRotorParameters Ex.ms [.rotor [.joint (some "b") (some 3) (some 2)]] = .ok m' () ∧
    loadRotorParameters m' [.rotor [.joint (some "b") (some 3) (some 2)]] = .ok m'' () ∧
    m'.armature = [0, 12] ∧ m''.armature = [0, 24] :=
  ⟨_, _, rfl, rfl, by decide +kernel, by decide +kernel⟩

/-- **A rejected document leaves the model partly modified**: the first tag is applied, the second one has no gear ratio. -/
theorem C75_rotor_throw_counterexample : ∃ m', loadRotorParameters Ex.ms
    [.rotor [.joint (some "b") (some 3) (some 2), .joint (some "a") (some 1) none]] = .throw m' ∧
    Ex.ms.armature = [0, 0] ∧ m'.armature = [0, 12] := ⟨_, rfl, by decide +kernel, by decide +kernel⟩

/-- **After `appendGeometryModel`**, reading a document with disabled collisions is undefined behaviour: the matrix that gives the
position of a pair has not been enlarged. -/
theorem C75_append_counterexample : ∃ g h, runG GeomModel.empty [.addObject 0 ⟨"a", 2, 1, false⟩] = some g ∧
    runG GeomModel.empty [.addObject 0 ⟨"b", 4, 2, false⟩] = some h ∧
    removeCollisionPairs Ex.ms (g.appendGeometryModel h) [Tag.disable (K := ℚ) (some "A") (some "B")] = .ub :=
  ⟨_, _, rfl, rfl, rfl⟩

end Pin.Srdf
