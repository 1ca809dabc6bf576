import Verif.Model.Reach
import Verif.Spatial.InertiaLemmas

/-! # Further lemmas on construction histories: ancestors, frames, appended inertias -/

set_option linter.unusedSectionVars false
set_option linter.unusedSimpArgs false

namespace Pin
namespace Model
variable {K P : Type*} [Field K] [LinearOrder K] [HasEps K]

/-- ancestor-or-self relation of a parent table (0 is the root) -/
inductive Anc (parents : List ℕ) : ℕ → ℕ → Prop
  | refl (j : ℕ) : Anc parents j j
  | up {i j : ℕ} : 1 ≤ j → j < parents.length → Anc parents i (parents.getD j 0) → Anc parents i j

theorem mem_supports_iff {m : Model K P} (h : Inv m) (i : ℕ) : ∀ j, j < m.njoints →
    (i ∈ m.supports.getD j [] ↔ Anc m.parents i j) := by
  intro j
  induction j using Nat.strong_induction_on with
  | _ j ih =>
    intro hj
    rcases Nat.eq_zero_or_pos j with rfl | hp
    · rw [h.sup0]
      constructor
      · intro hi; simp at hi; subst hi; exact .refl _
      · intro ha
        cases ha with
        | refl => simp
        | up h1 => omega
    · have hlt := h.par j hp hj
      rw [h.sup j hp hj, List.mem_append, ih _ hlt (by omega), List.mem_singleton]
      constructor
      · rintro (ha | rfl)
        · exact .up hp (by rw [h.lens.parents]; exact hj) ha
        · exact .refl _
      · intro ha
        cases ha with
        | refl => exact Or.inr rfl
        | up _ _ ha => exact Or.inl ha

theorem supports_sorted {m : Model K P} (h : Inv m) : ∀ j, j < m.njoints →
    (m.supports.getD j []).Pairwise (· < ·) := by
  intro j
  induction j using Nat.strong_induction_on with
  | _ j ih =>
    intro hj
    rcases Nat.eq_zero_or_pos j with rfl | hp
    · rw [h.sup0]; simp
    · have hlt := h.par j hp hj
      rw [h.sup j hp hj, List.pairwise_append]
      refine ⟨ih _ hlt (by omega), by simp, ?_⟩
      intro a ha b hb
      rw [List.mem_singleton] at hb; rw [hb]
      have := mem_supports_le h _ (by omega : m.parents.getD j 0 < m.njoints) a ha
      omega

theorem supports_ne_nil {m : Model K P} (h : Inv m) (j : ℕ) (hj : j < m.njoints) :
    m.supports.getD j [] ≠ [] := List.ne_nil_of_mem (self_mem_supports h j hj)

theorem supports_getLast {m : Model K P} (h : Inv m) (j : ℕ) (hj : j < m.njoints) :
    (m.supports.getD j []).getLast? = some j := by
  rcases Nat.eq_zero_or_pos j with rfl | hp
  · rw [h.sup0]; rfl
  · rw [h.sup j hp hj]; simp

theorem supports_head {m : Model K P} (h : Inv m) : ∀ j, j < m.njoints →
    (m.supports.getD j []).head? = some 0 := by
  intro j
  induction j using Nat.strong_induction_on with
  | _ j ih =>
    intro hj
    rcases Nat.eq_zero_or_pos j with rfl | hp
    · rw [h.sup0]; rfl
    · have hlt := h.par j hp hj
      have := ih _ hlt (by omega)
      rw [h.sup j hp hj, List.head?_append, this]; rfl

theorem supports_chain {m : Model K P} (h : Inv m) : ∀ j, j < m.njoints →
    (m.supports.getD j []).IsChain (fun a b => 1 ≤ b ∧ m.parents.getD b 0 = a) := by
  intro j
  induction j using Nat.strong_induction_on with
  | _ j ih =>
    intro hj
    rcases Nat.eq_zero_or_pos j with rfl | hp
    · rw [h.sup0]; exact List.isChain_singleton _
    · have hlt := h.par j hp hj
      rw [h.sup j hp hj, List.isChain_append]
      refine ⟨ih _ hlt (by omega), by simp, ?_⟩
      intro x hx y hy
      rw [supports_getLast h _ (by omega)] at hx
      simp at hx hy
      subst hx hy
      exact ⟨hp, rfl⟩

/-! ## offsets partition the vector -/

/-- consecutive segments of lengths `l` cover `[0, l.sum)` without overlap -/
theorem exists_unique_segment (l : List ℕ) (t : ℕ) (ht : t < l.sum) :
    ∃! i, i < l.length ∧ (l.take i).sum ≤ t ∧ t < (l.take i).sum + l.getD i 0 := by
  have mono : ∀ (a b : ℕ), a ≤ b → (l.take a).sum ≤ (l.take b).sum := by
    intro a b hab
    obtain ⟨c, rfl⟩ := Nat.exists_eq_add_of_le hab
    rw [List.take_add, List.sum_append]; omega
  have step : ∀ i, i < l.length → (l.take (i + 1)).sum = (l.take i).sum + l.getD i 0 := by
    intro i hi
    rw [List.take_add_one, List.sum_append]
    simp [List.getD, List.getElem?_eq_getElem hi]
  -- smallest i with t < sum of first i+1
  have hex : ∃ i, t < (l.take (i + 1)).sum := by
    refine ⟨l.length, ?_⟩
    rw [List.take_of_length_le (by omega)]; exact ht
  classical
  let i := Nat.find hex
  have hi : t < (l.take (i + 1)).sum := Nat.find_spec hex
  have hilen : i < l.length := by
    by_contra hge
    have hle : l.length ≤ i := by omega
    rcases Nat.eq_zero_or_pos i with h0 | hp
    · have : l = [] := by
        apply List.length_eq_zero_iff.1; omega
      subst this; simp at ht
    · have := Nat.find_min hex (m := i - 1) (by change i - 1 < i; omega)
      apply this
      have e : i - 1 + 1 = i := by omega
      rw [e, List.take_of_length_le hle]; exact ht
  refine ⟨i, ⟨hilen, ?_, ?_⟩, ?_⟩
  · rcases Nat.eq_zero_or_pos i with h0 | hp
    · rw [h0]; simp
    · have := Nat.find_min hex (m := i - 1) (by change i - 1 < i; omega)
      have e : i - 1 + 1 = i := by omega
      rw [e] at this; omega
  · rw [← step i hilen]; exact hi
  · rintro k ⟨hk, hk1, hk2⟩
    rw [← step k hk] at hk2
    rcases Nat.lt_trichotomy k i with hlt | heq | hgt
    · exact absurd hk2 (Nat.find_min hex hlt)
    · exact heq
    · have := mono (i + 1) k hgt
      omega

/-! ## frames -/

/-- no two frames have the same name and overlapping type masks -/
def FramesDistinct (fs : List (Frame K)) : Prop :=
  fs.Pairwise (fun a b => ¬ (a.name = b.name ∧ (a.type &&& b.type) ≠ 0))

theorem framesDistinct_addFrame {m m' : Model K P} (h : FramesDistinct m.frames) (f : Frame K)
    (b : Bool) (hs : Res.state (m.addFrame f b) = some m') : FramesDistinct m'.frames := by
  unfold addFrame at hs
  split at hs
  · simp [Res.state] at hs; exact hs ▸ h
  · split at hs
    · split at hs <;> simp [Res.state] at hs <;> exact hs ▸ h
    · rename_i hne
      simp [Res.state] at hs
      subst hs
      simp only [FramesDistinct, List.pairwise_append]
      refine ⟨h, by simp, ?_⟩
      intro x hx y hy
      simp at hy; subst hy
      rintro ⟨h1, h2⟩
      apply hne
      unfold existFrame
      rw [List.any_eq_true]
      refine ⟨x, hx, ?_⟩
      have : (y.type &&& x.type) ≠ 0 := by rw [Nat.and_comm]; exact h2
      simp [filterFrame, h1, this]

theorem addJoint_frames (m : Model K P) (a : JointArgs K P) {m' : Model K P}
    (hs : Res.state (m.addJoint a) = some m') : m'.frames = m.frames := by
  unfold addJoint at hs
  cases hset : a.joint.setIndexes m.njoints m.nq m.nv m.nvx <;> simp only [hset] at hs <;>
    (repeat' split at hs) <;> (simp only [Res.state, Option.some.injEq] at hs; subst hs; rfl)

theorem framesDistinct_step {m m' : Model K P} {op : Op K P} (h : FramesDistinct m.frames)
    (hs : m.step op = some m') : FramesDistinct m'.frames := by
  cases op with
  | addJoint a => rw [addJoint_frames m a hs]; exact h
  | addFrame f b => exact framesDistinct_addFrame h f b hs
  | addJointFrame j p =>
    simp only [step] at hs
    unfold addJointFrame at hs
    split at hs
    · simp [Res.state] at hs; exact hs ▸ h
    · split at hs
      · simp [Res.state] at hs; exact hs ▸ h
      · exact framesDistinct_addFrame h _ _ hs
  | appendBody j Y M =>
    simp only [step] at hs
    unfold appendBodyToJoint at hs
    split at hs
    · simp [Res.state] at hs
    · simp [Res.state] at hs; subst hs; exact h
  | addBodyFrame s j M p =>
    simp only [step] at hs
    unfold addBodyFrame at hs
    split at hs
    · split at hs
      · simp [Res.state] at hs
      · split at hs
        · simp [Res.state] at hs; exact hs ▸ h
        · split at hs
          · simp [Res.state] at hs; exact hs ▸ h
          · exact framesDistinct_addFrame h _ _ hs
    · split at hs
      · simp [Res.state] at hs; exact hs ▸ h
      · exact framesDistinct_addFrame h _ _ hs

theorem Reach.framesDistinct {p0 : P} {m : Model K P} (h : Reach p0 m) : FramesDistinct m.frames := by
  induction h with
  | init =>
    have h := fun m' => framesDistinct_addFrame (m := bare p0) (m' := m') (by simp [FramesDistinct, bare])
      (universeFrame (K := K)) true
    unfold empty
    split
    · rename_i m a e; exact h m (by rw [e]; rfl)
    · rename_i m e; exact h m (by rw [e]; rfl)
    · simp [FramesDistinct, bare]
  | step _ _ hs ih => exact framesDistinct_step ih hs

theorem getFrameId_single {m : Model K P} (h : FramesDistinct m.frames) (name : String) (k : ℕ) :
    m.getFrameId name (2 ^ k) = some (m.frames.findIdx (filterFrame name (2 ^ k))) := by
  unfold getFrameId
  simp only
  rw [if_pos]
  by_cases hlen : m.frames.findIdx (filterFrame name (2 ^ k)) = m.frames.length
  · exact Or.inl hlen
  · right
    set i := m.frames.findIdx (filterFrame name (2 ^ k)) with hi
    have hilt : i < m.frames.length := lt_of_le_of_ne List.findIdx_le_length hlen
    have hpi : filterFrame name (2 ^ k) m.frames[i] = true := List.findIdx_getElem (w := hilt)
    rw [List.any_eq_false]
    intro x hx hpx
    obtain ⟨j, hj, rfl⟩ := List.getElem_of_mem hx
    rw [List.getElem_drop] at hpx
    have hjl : i + 1 + j < m.frames.length := by simp at hj; omega
    have hpw := List.pairwise_iff_getElem.1 h i (i + 1 + j) hilt hjl (by omega)
    apply hpw
    simp only [filterFrame, Bool.and_eq_true, bne_iff_ne, beq_iff_eq] at hpi hpx
    refine ⟨hpi.2.symm.trans hpx.2, ?_⟩
    have bit : ∀ t : ℕ, (2 ^ k &&& t) ≠ 0 → t.testBit k = true := by
      intro t ht
      by_contra hb
      apply ht
      simp only [Bool.not_eq_true] at hb
      apply Nat.eq_of_testBit_eq
      intro i
      rw [Nat.testBit_and, Nat.testBit_two_pow]
      by_cases hki : k = i
      · subst hki; simp [hb]
      · simp [hki]
    have b1 := bit _ hpi.1
    have b2 := bit _ hpx.1
    intro h0
    have : ((m.frames[i]).type &&& (m.frames[i + 1 + j]).type).testBit k = true := by
      rw [Nat.testBit_and, b1, b2]; rfl
    rw [h0] at this
    simp at this

/-! ## appended inertias -/

/-- what one call appended: (joint, inertia expressed in the joint frame) -/
def appended (m : Model K P) (op : Op K P) (m' : Model K P) : List (ℕ × Inertia K) :=
  match op with
  | .appendBody j Y M => [(j, Y.act M)]
  | .addFrame f true => if m'.nframes = m.nframes then [] else [(f.parentJoint, f.inertia.act f.placement)]
  | _ => []

/-- reachable states together with the log of everything appended so far -/
inductive ReachLog (p0 : P) : Model K P → List (ℕ × Inertia K) → Prop
  | init : ReachLog p0 (empty p0) []
  | step {m m' : Model K P} {op : Op K P} {L : List (ℕ × Inertia K)} :
      ReachLog p0 m L → OpOk m op → m.step op = some m' → ReachLog p0 m' (L ++ appended m op m')

theorem ReachLog.reach {p0 : P} {m : Model K P} {L : List (ℕ × Inertia K)} (h : ReachLog p0 m L) :
    Reach p0 m := by
  induction h with
  | init => exact .init
  | step _ hok hs ih => exact .step ih hok hs

/-- sum of the 6×6 inertias logged for joint `j` -/
def logMatrix (L : List (ℕ × Inertia K)) (j : ℕ) : M6 K :=
  ((L.filter (fun p => p.1 = j)).map (fun p => p.2.matrix)).sum

/-- sum of the masses logged for joint `j` -/
def logMass (L : List (ℕ × Inertia K)) (j : ℕ) : K :=
  ((L.filter (fun p => p.1 = j)).map (fun p => p.2.mass)).sum

variable [IsStrictOrderedRing K]

/-- zero or at least machine epsilon (and nonnegative) -/
def MassFine (x : K) : Prop := 0 ≤ x ∧ (x = 0 ∨ HasEps.eps ≤ x)

theorem MassFine.add {x y : K} (hx : MassFine x) (hy : MassFine y) : MassFine (x + y) := by
  obtain ⟨hx0, hx1⟩ := hx
  obtain ⟨hy0, hy1⟩ := hy
  refine ⟨by linarith, ?_⟩
  rcases hx1 with rfl | hx1
  · rcases hy1 with rfl | hy1
    · left; simp
    · right; linarith
  · right; linarith

theorem massFine_zero : MassFine (0 : K) := ⟨le_rfl, Or.inl rfl⟩

/-- adding an inertia of fine mass to one of fine mass -/
theorem fine_add {X Y : Inertia K} (hX : MassFine X.mass) (hY : MassFine Y.mass) :
    (X + Y).matrix = X.matrix + Y.matrix ∧ (X + Y).mass = X.mass + Y.mass :=
  ⟨Inertia.matrix_add X Y hX.1 hY.1 (hX.add hY).2, rfl⟩

theorem zero_act (M : SE3 K) : ((0 : Inertia K).act M).matrix = 0 ∧ ((0 : Inertia K).act M).mass = 0 := by
  constructor
  · ext <;> simp [Inertia.act, Inertia.matrix, M3.alphaSkew, Sym3.subAlphaSkewSquare, Sym3.matrix,
      Sym3.rotate]
  · rfl

/-- invariant of the inertia log -/
def LogInv (m : Model K P) (L : List (ℕ × Inertia K)) : Prop :=
  (∀ p ∈ L, p.1 < m.njoints) ∧
  ∀ j, j < m.njoints → (m.inertias.getD j 0).matrix = logMatrix L j ∧
    (m.inertias.getD j 0).mass = logMass L j ∧ MassFine (m.inertias.getD j 0).mass

theorem logMatrix_append (L L' : List (ℕ × Inertia K)) (j : ℕ) :
    logMatrix (L ++ L') j = logMatrix L j + logMatrix L' j := by
  simp [logMatrix]
theorem logMass_append (L L' : List (ℕ × Inertia K)) (j : ℕ) :
    logMass (L ++ L') j = logMass L j + logMass L' j := by
  simp [logMass]

theorem logInv_modify {m m' : Model K P} {L : List (ℕ × Inertia K)} (h : LogInv m L) (hm : Inv m)
    (j : ℕ) (Y : Inertia K) (hj : j < m.njoints) (hY : MassFine Y.mass)
    (hn : m'.njoints = m.njoints) (hi : m'.inertias = m.inertias.modify j (fun X => X + Y)) :
    LogInv m' (L ++ [(j, Y)]) := by
  obtain ⟨h1, h2⟩ := h
  refine ⟨?_, ?_⟩
  · intro p hp
    rw [hn]
    rcases List.mem_append.1 hp with h | h
    · exact h1 p h
    · simp at h; subst h; exact hj
  · intro k hk
    rw [hn] at hk
    obtain ⟨a1, a2, a3⟩ := h2 k hk
    rw [hi, getD_modify _ _ _ _ _ (by rw [hm.lens.inertias]; exact hk), logMatrix_append, logMass_append]
    by_cases hjk : j = k
    · subst hjk
      rw [if_pos rfl]
      obtain ⟨b1, b2⟩ := fine_add a3 hY
      refine ⟨?_, ?_, ?_⟩
      · rw [b1, a1]; simp [logMatrix]
      · rw [b2, a2]; simp [logMass]
      · rw [b2]; exact a3.add hY
    · rw [if_neg hjk]
      refine ⟨?_, ?_, a3⟩
      · rw [a1]; simp [logMatrix, hjk]
      · rw [a2]; simp [logMass, hjk]

theorem logInv_zero {m m' : Model K P} {L : List (ℕ × Inertia K)} (h : LogInv m L) (hm : Inv m)
    (j : ℕ) (M : SE3 K) (hj : j < m.njoints)
    (hn : m'.njoints = m.njoints)
    (hi : m'.inertias = m.inertias.modify j (fun X => X + (0 : Inertia K).act M)) : LogInv m' L := by
  have h0 := zero_act M
  have := logInv_modify h hm j ((0 : Inertia K).act M) hj (by rw [h0.2]; exact massFine_zero) hn hi
  refine ⟨fun p hp => this.1 p (List.mem_append_left _ hp), fun k hk => ?_⟩
  obtain ⟨a, b, c⟩ := this.2 k hk
  rw [logMatrix_append] at a
  rw [logMass_append] at b
  have e1 : logMatrix [(j, (0 : Inertia K).act M)] k = 0 := by
    by_cases hjk : j = k <;> simp [logMatrix, hjk, h0.1]
  have e2 : logMass [(j, (0 : Inertia K).act M)] k = 0 := by
    by_cases hjk : j = k <;> simp [logMass, hjk, h0.2]
  rw [e1, add_zero] at a
  rw [e2, add_zero] at b
  exact ⟨a, b, c⟩

theorem logInv_addFrame_zero {m m' : Model K P} {L : List (ℕ × Inertia K)} (h : LogInv m L) (hm : Inv m)
    (f : Frame K) (hf : f.inertia = 0) (b : Bool)
    (hs : Res.state (m.addFrame f b) = some m') : LogInv m' L := by
  unfold addFrame at hs
  split at hs
  · simp [Res.state] at hs; exact hs ▸ h
  · rename_i hj
    split at hs
    · split at hs <;> simp [Res.state] at hs <;> exact hs ▸ h
    · simp only [Res.state, Option.some.injEq] at hs
      subst hs
      cases b with
      | false => exact h
      | true =>
        refine logInv_zero (m' := _) h hm f.parentJoint f.placement (not_not.1 hj) ?_ ?_
        · rfl
        · simp [hf]

theorem logInv_step {m m' : Model K P} {op : Op K P} {L : List (ℕ × Inertia K)} (h : LogInv m L)
    (hm : Inv m) (hok : OpOk m op) (hs : m.step op = some m')
    (hmass : ∀ p ∈ appended m op m', MassFine p.2.mass) : LogInv m' (L ++ appended m op m') := by
  cases op with
  | addJoint a =>
    simp only [appended, List.append_nil]
    rcases addJoint_cases m a hm hok with ⟨-, he⟩ | ⟨hA, e, m2, he, ad⟩
    · simp only [step, he, Res.state, Option.some.injEq] at hs; exact hs ▸ h
    · simp only [step, he, Res.state, Option.some.injEq] at hs
      subst hs
      refine ⟨fun p hp => by rw [ad.njoints]; have := h.1 p hp; omega, fun j hj => ?_⟩
      rw [ad.njoints] at hj
      rcases Nat.lt_succ_iff_lt_or_eq.1 hj with hlt | rfl
      · rw [ad.inertias, getD_append_lt _ _ _ (by rw [hm.lens.inertias]; exact hlt)]
        exact h.2 j hlt
      · rw [ad.inertias, getD_append_eq _ _ _ hm.lens.inertias.symm]
        have hf : L.filter (fun p => p.1 = m.njoints) = [] := by
          rw [List.filter_eq_nil_iff]
          intro p hp
          have := h.1 p hp
          simp; omega
        simp only [logMatrix, logMass, hf]
        simp [massFine_zero]
  | addFrame f b =>
    cases b with
    | false =>
      simp only [appended, List.append_nil]
      simp only [step] at hs
      unfold addFrame at hs
      split at hs
      · simp [Res.state] at hs; exact hs ▸ h
      · split at hs
        · split at hs <;> simp [Res.state] at hs <;> exact hs ▸ h
        · simp [Res.state] at hs
          subst hs; exact h
    | true =>
      simp only [step] at hs
      unfold addFrame at hs
      split at hs
      · simp [Res.state] at hs; subst hs; simpa [appended] using h
      · rename_i hj
        split at hs
        · split at hs <;> simp [Res.state] at hs <;> subst hs <;> simpa [appended] using h
        · simp only [Res.state, Option.some.injEq, if_true] at hs
          subst hs
          simp only [appended, Nat.add_eq_left, one_ne_zero, if_false] at hmass ⊢
          exact logInv_modify h hm _ _ (not_not.1 hj)
            (hmass (f.parentJoint, f.inertia.act f.placement) (by simp)) rfl rfl
  | addJointFrame j p =>
    simp only [appended, List.append_nil]
    simp only [step] at hs
    unfold addJointFrame at hs
    split at hs
    · simp [Res.state] at hs; exact hs ▸ h
    · split at hs
      · simp [Res.state] at hs; exact hs ▸ h
      · exact logInv_addFrame_zero h hm _ rfl _ hs
  | appendBody j Y M =>
    simp only [step] at hs
    unfold appendBodyToJoint at hs
    split at hs
    · simp [Res.state] at hs
    · rename_i hj
      simp [Res.state] at hs
      subst hs
      rw [hm.lens.inertias] at hj
      simp only [appended] at hmass ⊢
      exact logInv_modify h hm j _ (not_not.1 hj) (hmass (j, Y.act M) (by simp)) rfl rfl
  | addBodyFrame s j M p =>
    simp only [appended, List.append_nil]
    simp only [step] at hs
    unfold addBodyFrame at hs
    split at hs
    · split at hs
      · simp [Res.state] at hs
      · split at hs
        · simp [Res.state] at hs; exact hs ▸ h
        · split at hs
          · simp [Res.state] at hs; exact hs ▸ h
          · exact logInv_addFrame_zero h hm _ rfl _ hs
    · split at hs
      · simp [Res.state] at hs; exact hs ▸ h
      · exact logInv_addFrame_zero h hm _ rfl _ hs

theorem logInv_bare (p0 : P) : LogInv (bare p0 : Model K P) [] := by
  refine ⟨by simp, fun j hj => ?_⟩
  have : j = 0 := by simp [bare] at hj; omega
  subst this
  simp [bare, logMatrix, logMass, massFine_zero]

theorem logInv_empty (p0 : P) : LogInv (empty p0 : Model K P) [] := by
  have h := fun m' => logInv_addFrame_zero (m' := m') (logInv_bare p0) (inv_bare p0)
    (universeFrame (K := K)) rfl true
  unfold empty
  split
  · rename_i m a e; exact h m (by rw [e]; rfl)
  · rename_i m e; exact h m (by rw [e]; rfl)
  · exact logInv_bare p0

theorem ReachLog.logInv {p0 : P} {m : Model K P} {L : List (ℕ × Inertia K)} (h : ReachLog p0 m L)
    (hmass : ∀ p ∈ L, MassFine p.2.mass) : LogInv m L := by
  induction h with
  | init => exact logInv_empty p0
  | step hr hok hs ih =>
    exact logInv_step (ih fun p hp => hmass p (List.mem_append_left _ hp)) hr.reach.inv hok hs
      fun p hp => hmass p (List.mem_append_right _ hp)

end Model
end Pin
