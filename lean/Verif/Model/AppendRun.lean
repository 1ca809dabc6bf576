import Verif.Model.AppendInv
import Verif.Spec.Append

/-! # `appendModel` as a whole -/

set_option linter.unusedSectionVars false
set_option linter.unusedSimpArgs false
set_option linter.unusedVariables false

namespace Pin
open Finset
namespace Model
variable {K P : Type*} [Field K] [LinearOrder K] [IsStrictOrderedRing K] [HasEps K]

variable {S : Bool → Model K P} {B : Bool → ℕ} {Mb : Bool → SE3 K} {u : Bool → Bool} {done : List (Bool × ℕ)}
  {D : Bool → ℕ → Prop} {m m' : Model K P}

theorem AInv.congrD {D' : Bool → ℕ → Prop} (h : AInv S B Mb u done D m) (hD : ∀ b i, D' b i → D b i) :
    AInv S B Mb u done D' m :=
  ⟨h.inv, h.nj, h.names, h.nd, h.f0, h.kept, h.mim, h.arm, h.shape, fun b f hf hd => h.cop b f hf (hD _ _ hd), h.bd, h.mass,
    h.mat⟩

theorem AInv.joints (H : AHyp S) {b : Bool} {pMi : ℕ → SE3 K} : ∀ (l : List ℕ) (done : List (Bool × ℕ)) (D : Bool → ℕ → Prop)
    (m m' : Model K P), AInv S B Mb u done D m → (∀ j ∈ l, 1 ≤ j ∧ j < (S b).njoints) →
    (∀ j ∈ l, pMi j * (S b).pl j = place Mb b ((S b).par j) ((S b).pl j)) →
    appendJoints (S b) (B b) pMi l m = .ok m' () →
    AInv S B Mb u (done ++ l.map fun j => (b, j)) (fun b' i' => D b' i' ∨ (b' = b ∧ i' ∈ l)) m' := by
  intro l
  induction l with
  | nil =>
    intro done D m m' h _ _ hr
    obtain ⟨rfl, -⟩ := Res.ok.inj hr
    simpa using h
  | cons j l ih =>
    intro done D m m' h hj hp hr
    obtain ⟨m1, _, h1, h2⟩ := Res.bind_ok hr
    obtain ⟨j1, j2⟩ := hj j (by simp)
    have k := h.joint H j1 j2 (hp j (by simp)) h1
    have := ih _ _ _ _ k (fun i hi => hj i (by simp [hi])) (fun i hi => hp i (by simp [hi])) h2
    rw [List.append_assoc] at this
    refine AInv.congrD this ?_
    rintro b' i' (h | ⟨h3, h4⟩)
    · exact Or.inl (Or.inl h)
    · rcases List.mem_cons.1 h4 with rfl | h4
      · exact Or.inl (Or.inr ⟨h3, rfl⟩)
      · exact Or.inr ⟨h3, h4⟩

theorem AInv.init (p0 : P) : AInv S B Mb (fun _ => false) [] (fun _ _ => False) (empty p0) := by
  have hI : Inv (empty (K := K) p0) := Reach.init.inv
  have z : (0 : Inertia K) + (0 : Inertia K).act 1 = (empty (K := K) p0).inertia 0 := rfl
  obtain ⟨z1, z2⟩ := zero_act (K := K) 1
  obtain ⟨f1, f2⟩ := fine_add (X := (0 : Inertia K)) (Y := (0 : Inertia K).act 1) massFine_zero (by rw [z2]; exact massFine_zero)
  rw [z1, zero_inertia_matrix] at f1
  rw [z2, zero_inertia_mass] at f2
  have e0 : ∀ k < (empty (K := K) p0).njoints, k = 0 := by
    intro k hk
    have : (empty (K := K) p0).njoints = 1 := rfl
    omega
  refine ⟨hI, rfl, rfl, by simp [empty, bare, addFrame, universeFrame, existFrame], rfl, ?_, ?_, ?_, ?_, ?_, ?_, ?_, ?_⟩
  · intro t x hx; cases hx
  · intro t x e y hx; cases hx
  · intro x hx; change x ∈ [] at hx; cases hx
  · intro g hg; change g ∈ [universeFrame] at hg; left; simpa using hg
  · intro b f _ h; cases h
  · intro b h; cases h
  · intro k hk
    rw [e0 k hk, ← z]
    simp only [own, extra, f2]
    simp [zero_inertia_mass]
  · intro _ k hk
    rw [e0 k hk, ← z]
    refine ⟨by rw [f2, add_zero]; exact massFine_zero, ?_⟩
    rw [f1]
    simp [own, extra, zero_inertia_matrix]

/-! ## the order of the joints -/

theorem mem_before {A : Model K P} {p j : ℕ} (hp : p < A.joints.length) (h : j ∈ A.jointsBefore p) :
    1 ≤ j ∧ j < A.joints.length := by
  simp only [jointsBefore, List.mem_append, List.mem_range'_1, List.mem_filter] at h
  rcases h with h | ⟨h, -⟩ <;> omega

theorem mem_after {A : Model K P} {p j : ℕ} (h : j ∈ A.jointsAfter p) : 1 ≤ j ∧ j < A.joints.length := by
  simp only [jointsAfter, List.mem_range'_1, List.mem_filter] at h
  omega

theorem mem_before_or {A : Model K P} {p j : ℕ} (h1 : 1 ≤ j) (hj : j < A.joints.length) :
    j ∈ A.jointsBefore p ∨ j ∈ A.jointsAfter p := by
  simp only [jointsBefore, jointsAfter, List.mem_append, List.mem_range'_1, List.mem_filter]
  by_cases h : j < 1 + p
  · exact Or.inl (Or.inl ⟨h1, h⟩)
  · cases hb : A.hasAncestor j p
    · right; refine ⟨by omega, by simp⟩
    · left; right; refine ⟨by omega, by simp⟩

theorem filter_length_add {α : Type*} (p : α → Bool) (l : List α) :
    (l.filter p).length + (l.filter fun x => !p x).length = l.length := by
  induction l with
  | nil => rfl
  | cons x l ih =>
    rw [List.filter_cons, List.filter_cons]
    cases p x <;> simp <;> omega

theorem before_after_length {A : Model K P} {p : ℕ} (hp : p < A.joints.length) :
    (A.jointsBefore p).length + (A.jointsAfter p).length + 1 = A.joints.length := by
  have := filter_length_add (fun j => A.hasAncestor j p) (List.range' (p + 1) (A.joints.length - (p + 1)))
  simp only [List.length_range'] at this
  simp only [jointsBefore, jointsAfter, List.length_append, List.length_range']
  omega

theorem before_getElem {A : Model K P} {n : ℕ} : (A.jointsBefore n.succ)[n]? = some (n + 1) := by
  rw [jointsBefore, List.getElem?_append_left (by simp)]
  simp [List.getElem?_range', Nat.add_comm]

/-- the joints of the result -/
def order (A B : Model K P) (p : ℕ) : List (Bool × ℕ) :=
  (A.jointsBefore p).map (fun j => (false, j)) ++ (List.range' 1 (B.joints.length - 1)).map (fun j => (true, j)) ++
    (A.jointsAfter p).map (fun j => (false, j))

/-- the two sources -/
def src (A B : Model K P) : Bool → Model K P := fun b => if b then B else A
/-- the joints that carry their universes -/
def bases (fr : Frame K) : Bool → ℕ := fun b => if b then fr.parentJoint else 0
/-- the placements of their universes -/
def places (fr : Frame K) (aMb : SE3 K) : Bool → SE3 K := fun b => if b then fr.placement * aMb else 1

theorem src_hyp {A B : Model K P} {p0 p1 : P} (hA : Built p0 A) (hB : Built p1 B) (nA : A.names.Nodup) (nB : B.names.Nodup) :
    AHyp (src A B) := by
  refine ⟨fun b => ?_, fun b => ?_, fun b => ?_, fun b => ?_⟩
  · cases b; exact hA.inv; exact hB.inv
  · cases b; exact nA; exact nB
  · cases b
    · exact (name_eq hA.inv hA.inv.lens.pos _).2 hA.base.n0
    · exact (name_eq hB.inv hB.inv.lens.pos _).2 hB.base.n0
  · cases b; exact hA.base.mimic; exact hB.base.mimic

theorem appendModel_inv {A B r : Model K P} {p0 p1 p2 : P} {frame : ℕ} {fr : Frame K} {aMb : SE3 K} (hA : Built p0 A)
    (hB : Built p1 B) (nA : A.names.Nodup) (nB : B.names.Nodup) (hfr : A.frames[frame]? = some fr) (hty : ANY &&& fr.type ≠ 0)
    (h : appendModel A B p2 frame aMb = .ok r ()) :
    AInv (src A B) (bases fr) (places fr aMb) (fun _ => true) (order A B fr.parentJoint) (fun b i => i < (src A B b).njoints) r := by
  have H := src_hyp hA hB nA nB
  have hpA : fr.parentJoint < A.joints.length := by
    rw [hA.inv.lens.joints]; exact hA.base.fpar fr (List.mem_of_getElem? hfr)
  unfold appendModel at h
  split at h
  · cases h
  rw [hfr] at h
  dsimp only at h
  obtain ⟨m1, _, h1, h⟩ := Res.bind_ok h
  obtain ⟨m2, _, h2, h⟩ := Res.bind_ok h
  split at h
  · cases h
  rename_i pf hpf
  obtain ⟨m3, _, h3, h⟩ := Res.bind_ok h
  obtain ⟨m4, _, h4, h5⟩ := Res.bind_ok h
  -- the universe of A
  have k1 := (AInv.init (S := src A B) (B := bases fr) (Mb := places fr aMb) p2).universe (b := false) rfl
    (by have := hA.inv.lens.pos; change A.njoints ≠ 0; omega) (pf := 0) (pframe := universeFrame) (M := 1) rfl rfl
    (by change (1 : SE3 K) * 1 = 1; exact SE3.one_mul 1) h1
  -- the first joints of A
  have k2 := AInv.joints H (b := false) _ _ _ _ _ k1 (fun j hj => by
      have := mem_before hpA hj
      rw [hA.inv.lens.joints] at this; exact this)
    (fun j _ => by
      unfold place
      split
      · rfl
      · exact SE3.one_mul _) h2
  rw [List.nil_append] at k2
  -- the frame of A is in m2
  have hp1 : tgt (src A B) (bases fr) m2 false fr.parentJoint = fr.parentJoint := by
    unfold tgt
    split
    · rename_i hz; rw [hz]; rfl
    · rename_i hz
      refine getJointId_eq k2.nd ?_
      obtain ⟨n, hn⟩ := Nat.exists_eq_succ_of_ne_zero hz
      rw [k2.names, hn, List.getElem?_cons_succ, List.map_map, List.getElem?_map, before_getElem]
      rfl
  have hg : ∃ g ∈ m2.frames, g.name = fr.name ∧ g.type = fr.type ∧ g.parentJoint = fr.parentJoint ∧ g.placement = fr.placement := by
    by_cases h0 : frame = 0
    · rw [h0] at hfr
      rw [hA.base.f0] at hfr
      obtain rfl := Option.some.inj hfr
      exact ⟨_, List.mem_of_getElem? k2.f0, rfl, rfl, rfl, rfl⟩
    · have hm : fr ∈ A.frames.drop 1 := by
        refine List.mem_of_getElem? (i := frame - 1) ?_
        rw [List.getElem?_drop, show 1 + (frame - 1) = frame by omega]; exact hfr
      obtain ⟨g, hg, -, r⟩ := k2.cop false fr hm (by
        by_cases hz : fr.parentJoint = 0
        · exact Or.inl (Or.inr ⟨rfl, hz⟩)
        · refine Or.inr ⟨rfl, ?_⟩
          rw [jointsBefore, List.mem_append, List.mem_range'_1]; left; omega)
      refine ⟨g, hg, r.name, r.type, r.parentJoint.trans hp1, ?_⟩
      rw [r.placement]
      unfold place
      split
      · change (1 : SE3 K) * _ = _; exact SE3.one_mul _
      · rfl
  obtain ⟨g, hgm, g1, g2, g3, g4⟩ := hg
  have hself : fr.type &&& fr.type ≠ 0 := by
    rw [Nat.and_self]; rintro e; rw [e] at hty; exact hty (Nat.and_zero _)
  have hpfr : m2.frames[pf]? = some g := by
    unfold frameIdIn at hpf
    split at hpf
    · cases hpf
    rename_i id hid
    have hidf := getFrameId_unique (g := fr) (List.mem_of_getElem? hfr) (by simp [filterFrame, hty]) hid
    split at hpf
    · rename_i hc
      rw [hc.1, hA.base.f0] at hidf
      have e := Option.some.inj hidf
      have hu : m2.frames.getD 0 universeFrame = universeFrame := by simp [List.getD, k2.f0]
      rw [hu] at hpf
      refine getFrameId_unique hgm ?_ hpf
      rw [filterFrame, g1, g2, ← e]
      simp [universeFrame, FIXED_JOINT]
    · exact getFrameId_unique hgm (by simp only [filterFrame, g1, g2]; simpa using hself) hpf
  have k3 := k2.universe (b := true) (by simp) (by have := hB.inv.lens.pos; change B.njoints ≠ 0; omega) hpfr g3
    (M := aMb) (by rw [g4]; rfl) h3
  have k4 := AInv.joints H (b := true) _ _ _ _ _ k3 (fun j hj => by
      rw [List.mem_range'_1, hB.inv.lens.joints] at hj
      change 1 ≤ j ∧ j < B.njoints
      omega)
    (fun j _ => by
      change (if B.parents.getD j 0 = 0 then fr.placement * aMb else 1) * B.pl j = place (places fr aMb) true (B.par j) (B.pl j)
      unfold place Model.par
      split
      · rfl
      · exact SE3.one_mul _) h4
  have k5 := AInv.joints H (b := false) _ _ _ _ _ k4 (fun j hj => by
      have := mem_after hj
      rw [hA.inv.lens.joints] at this; exact this)
    (fun j _ => by
      unfold place
      split
      · rfl
      · exact SE3.one_mul _) h5
  have hu : Function.update (Function.update (fun _ : Bool => false) false true) true true = fun _ => true := by
    funext b; cases b <;> rfl
  rw [hu] at k5
  refine AInv.congrD k5 ?_
  intro b i hi
  cases b
  · by_cases hz : i = 0
    · exact Or.inl (Or.inl (Or.inl (Or.inl (Or.inr ⟨rfl, hz⟩))))
    · change i < A.njoints at hi
      rw [← hA.inv.lens.joints] at hi
      rcases mem_before_or (p := fr.parentJoint) (Nat.one_le_iff_ne_zero.2 hz) hi with e | e
      · exact Or.inl (Or.inl (Or.inl (Or.inr ⟨rfl, e⟩)))
      · exact Or.inr ⟨rfl, e⟩
  · by_cases hz : i = 0
    · exact Or.inl (Or.inl (Or.inr ⟨rfl, hz⟩))
    · change i < B.njoints at hi
      refine Or.inl (Or.inr ⟨rfl, ?_⟩)
      rw [List.mem_range'_1, hB.inv.lens.joints]
      omega

end Model
end Pin
