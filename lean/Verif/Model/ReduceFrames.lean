import Verif.Model.ReduceLemmas

/-! # The frames of the reduced model, and the end of the loop -/

set_option linter.unusedSectionVars false
set_option linter.unusedVariables false

namespace Pin
open Finset
namespace Model
variable {K : Type*} [Field K] [LinearOrder K] [HasEps K] [IsStrictOrderedRing K]
variable {inp : Model K (Joint K)} {L : List ℕ} {qref : List K}

theorem copyUpTo_ok' {P : Type*} {inp : Model K P} {L : List ℕ} {name : String} (Q : Model K P → Prop)
    (hQ : ∀ m f m', f ∈ inp.frames → Q m → copyFrame inp L m f = .ok m' () → Q m') :
    ∀ (fuel fi : ℕ) (m : Model K P) (r : Model K P × ℕ), Q m → copyUpTo inp L name fuel fi m = .ok r () → Q r.1 := by
  intro fuel
  induction fuel with
  | zero => intro fi m r _ h; cases h
  | succ n ih =>
    intro fi m r hm h
    unfold copyUpTo at h
    split at h
    · cases h
    split at h
    · simp only [Res.ok.injEq, and_true] at h; subst h; exact hm
    split at h
    · cases h
    · rename_i g hg
      split at h
      · simp only [Res.ok.injEq, and_true] at h; subst h; exact hm
      split at h
      · rename_i m' _ he
        exact ih _ _ _ (hQ m g m' (List.mem_of_getElem? hg) hm he) h
      · cases h
      · cases h

theorem copyRest_ok' {P : Type*} {inp : Model K P} {L : List ℕ} (Q : Model K P → Prop)
    (hQ : ∀ m f m', f ∈ inp.frames → Q m → copyFrame inp L m f = .ok m' () → Q m') :
    ∀ (l : List (Frame K)) (m m' : Model K P), (∀ f ∈ l, f ∈ inp.frames) → Q m → copyRest inp L l m = .ok m' () → Q m' := by
  intro l
  induction l with
  | nil => intro m m' _ hm h; simp only [copyRest, Res.ok.injEq, and_true] at h; exact h ▸ hm
  | cons f l ih =>
    intro m m' hl hm h
    unfold copyRest at h
    split at h
    · rename_i m1 _ he
      exact ih _ _ (fun g hg => hl g (by simp [hg])) (hQ m f m1 (hl f (by simp)) hm he) h
    · cases h
    · cases h

/-- what the frames of the input must satisfy -/
structure FHyp (inp : Model K (Joint K)) : Prop where
  parent : ∀ f ∈ inp.frames, f.parentJoint < inp.njoints
  type : ∀ f ∈ inp.frames, f.type ≠ 0
  /-- a frame named as a joint is attached to that joint -/
  own : ∀ f ∈ inp.frames, ∀ i, 1 ≤ i → i < inp.njoints → f.name = inp.name i → f.parentJoint = i

/-- the frames of the reduced model when the joints below `j` have been processed -/
structure FInv (inp : Model K (Joint K)) (L : List ℕ) (qref : List K) (j : ℕ) (m : Model K (Joint K)) : Prop where
  before : ∀ g ∈ m.frames, ∀ i, 1 ≤ i → i < inp.njoints → g.name = inp.name i → i < j
  shape : ∀ g ∈ m.frames, g = universeFrame ∨ (∃ i, 1 ≤ i ∧ i < j ∧ i ∈ L ∧ FrameOfJoint inp L qref i g) ∨
    ∃ f ∈ inp.frames, FrameOf inp L qref f g

theorem getFrameId_name {P : Type*} {m : Model K P} {name : String} {mask f : ℕ} {g : Frame K}
    (h : m.getFrameId name mask = some f) (hg : m.frames[f]? = some g) : g.name = name := by
  unfold getFrameId at h
  simp only at h
  split at h
  · have hf := Option.some.inj h
    have hlt : m.frames.findIdx (filterFrame name mask) < m.frames.length := by
      by_contra hc
      rw [hf] at hc
      rw [List.getElem?_eq_none (by omega)] at hg; cases hg
    have := List.findIdx_getElem (w := hlt)
    rw [← hf, List.getElem?_eq_getElem hlt] at hg
    rw [Option.some.inj hg] at this
    simp only [filterFrame, Bool.and_eq_true, beq_iff_eq] at this
    exact this.2.symm
  · cases h

theorem FInv.push {j : ℕ} {m : Model K (Joint K)} (h : FInv inp L qref j m) {f g : Frame K} (hf : f ∈ inp.frames)
    (hg : FrameOf inp L qref f g) (hF : FHyp inp) (hp : f.parentJoint < j) :
    FInv inp L qref j { m with frames := m.frames ++ [g], nframes := m.nframes + 1 } := by
  refine ⟨fun g' hg' i h1 hi hn => ?_, fun g' hg' => ?_⟩
  · rcases List.mem_append.1 hg' with e | e
    · exact h.before g' e i h1 hi hn
    · simp at e; subst e
      rw [hg.name] at hn
      exact hF.own f hf i h1 hi hn ▸ hp
  · rcases List.mem_append.1 hg' with e | e
    · exact h.shape g' e
    · simp at e; subst e
      exact Or.inr (Or.inr ⟨f, hf, hg⟩)

theorem FInv.copy {j : ℕ} {m m' : Model K (Joint K)} (H : RHyp inp L) (hF : FHyp inp) (hj : j ≤ inp.njoints)
    (h : RInv inp L qref j m ∧ FInv inp L qref j m) {f : Frame K} (hf : f ∈ inp.frames)
    (hc : copyFrame inp L m f = .ok m' ()) : RInv inp L qref j m' ∧ FInv inp L qref j m' := by
  obtain ⟨hr, hi⟩ := h
  have hpn := hF.parent f hf
  have push : ∀ g : Frame K, g.name = f.name → g.type = f.type →
      RInv inp L qref j { m with frames := m.frames ++ [g], nframes := m.nframes + 1 } := by
    intro g h1 h2
    refine hr.frame g fun ht i h1' hi' hname => ?_
    rw [h2] at ht
    rw [h1] at hname
    exact absurd hname (H.fixed f hf ht i h1' hi')
  unfold copyFrame at hc
  rw [name_getElem H.inv hpn] at hc
  dsimp only at hc
  split at hc
  · rename_i hL
    split at hc
    · simp only [Res.ok.injEq, and_true] at hc; subst hc; exact ⟨hr, hi⟩
    split at hc
    · cases hc
    rename_i jf hjf
    split at hc
    · rename_i jframe pframe hjframe hpframe
      split at hc
      · cases hc
      rename_i pf hpf
      have hp1 : 1 ≤ f.parentJoint := by
        rcases Nat.eq_zero_or_pos f.parentJoint with e | e
        · rw [e] at hL; exact absurd hL H.lock
        · exact e
      have hpj : f.parentJoint < j :=
        hi.before jframe (List.mem_of_getElem? hjframe) _ hp1 hpn (getFrameId_name hjf hjframe)
      obtain ⟨g, hg, e1, e2, e3, e4⟩ := hr.fix f.parentJoint hp1 hpj hL
      have hu := getFrameId_unique hg (by simp [filterFrame, e1, e2, ANY, JOINT, FIXED_JOINT, BODY, OP_FRAME, SENSOR]) hjf
      rw [hjframe] at hu
      obtain rfl := Option.some.inj hu
      split at hc
      · rename_i he
        simp only [Res.ok.injEq, and_true] at hc
        subst hc
        rcases addFrame_false he with e | e
        · subst e; exact ⟨hr, hi⟩
        · subst e
          refine ⟨push _ rfl rfl, hi.push hf ⟨rfl, rfl, rfl, ?_, ?_⟩ hF hpj⟩
          · exact e3
          · dsimp only; rw [e4]
      · cases hc
      · cases hc
    · cases hc
  · rename_i hL
    split at hc
    · cases hc
    split at hc
    · cases hc
    rename_i pf hpf
    split at hc
    · rename_i he
      simp only [Res.ok.injEq, and_true] at hc
      subst hc
      have hlt : m.getJointId (inp.name f.parentJoint) < m.njoints := by
        unfold addFrame at he
        split at he
        · cases he
        · rename_i hh; exact not_not.1 hh
      have hex : m.existJointName (inp.name f.parentJoint) = true := by
        unfold getJointId at hlt
        rw [← hr.inv.lens.names, List.findIdx_lt_length] at hlt
        unfold existJointName
        rw [List.any_eq_true]
        exact hlt
      obtain ⟨m1, m2⟩ := (hr.exist H hj hpn).1 hex
      rcases addFrame_false he with e | e
      · subst e; exact ⟨hr, hi⟩
      · subst e
        have ha : inp.att L qref f.parentJoint = (f.parentJoint, 1) := attach_kept m2
        refine ⟨push _ rfl rfl, hi.push hf ⟨rfl, rfl, rfl, ?_, ?_⟩ hF m1⟩
        · dsimp only; rw [ha, hr.jointId H hj m1 m2]
        · dsimp only; rw [ha, SE3.one_mul]
    · cases hc
    · cases hc

/-! ## frames of the input are kept -/

/-- the frames of the input before the iterator are there, unless named as a locked joint -/
def CInv (inp : Model K (Joint K)) (L : List ℕ) (fi : ℕ) (m : Model K (Joint K)) : Prop :=
  ∀ t ≤ fi, ∀ f, inp.frames[t]? = some f → (∃ i ∈ L, f.name = inp.name i) ∨ m.existFrame f.name f.type = true

theorem existFrame_append {P : Type*} {m : Model K P} {name : String} {mask : ℕ} {g : Frame K} {n : ℕ}
    (h : m.existFrame name mask = true) :
    ({ m with frames := m.frames ++ [g], nframes := n } : Model K P).existFrame name mask = true := by
  unfold existFrame at h ⊢
  rw [List.any_append, h]; rfl

theorem existFrame_last {P : Type*} {m : Model K P} {g : Frame K} {n : ℕ} (h : g.type ≠ 0) :
    ({ m with frames := m.frames ++ [g], nframes := n } : Model K P).existFrame g.name g.type = true := by
  unfold existFrame
  rw [List.any_append]
  simp [filterFrame, h]

theorem addFrame_exist {P : Type*} {m m' : Model K P} {f : Frame K} {i : ℕ} {b : Bool} (ht : f.type ≠ 0)
    (h : m.addFrame f b = .ok m' i) : m'.existFrame f.name f.type = true := by
  unfold addFrame at h
  split at h
  · cases h
  · split at h
    · rename_i hx
      split at h
      · simp only [Res.ok.injEq] at h; rw [← h.1]; exact hx
      · cases h
    · simp only [Res.ok.injEq] at h
      rw [← h.1]
      unfold existFrame
      dsimp only
      rw [List.any_append]
      simp [filterFrame, ht]

theorem copyFrame_mono {P : Type*} {inp m m' : Model K P} {f : Frame K} (h : copyFrame inp L m f = .ok m' ()) {name : String}
    {mask : ℕ} (hx : m.existFrame name mask = true) : m'.existFrame name mask = true := by
  rcases copyFrame_ok h with e | ⟨g, -, -, e⟩
  · rw [e]; exact hx
  · rw [e]; exact existFrame_append hx

theorem copyFrame_exist {m m' : Model K (Joint K)} {f : Frame K} (hI : Inv inp) (ht : f.type ≠ 0)
    (hp : f.parentJoint < inp.njoints) (h : copyFrame inp L m f = .ok m' ()) :
    (∃ i ∈ L, f.name = inp.name i) ∨ m'.existFrame f.name f.type = true := by
  unfold copyFrame at h
  rw [name_getElem hI hp] at h
  dsimp only at h
  split at h
  · rename_i hL
    split at h
    · rename_i hc
      simp only [Bool.and_eq_true, beq_iff_eq] at hc
      exact Or.inl ⟨_, hL, hc.2.symm⟩
    split at h
    · cases h
    split at h
    · split at h
      · cases h
      split at h
      · rename_i he
        simp only [Res.ok.injEq, and_true] at h
        subst h
        have hx := addFrame_exist (by dsimp only; exact ht) he
        exact Or.inr hx
      · cases h
      · cases h
    · cases h
  · split at h
    · cases h
    split at h
    · cases h
    split at h
    · rename_i he
      simp only [Res.ok.injEq, and_true] at h
      subst h
      have hx := addFrame_exist (by dsimp only; exact ht) he
      exact Or.inr hx
    · cases h
    · cases h

theorem CInv.upTo {j : ℕ} (hI : Inv inp) (hF : FHyp inp) (hj : j ∈ L) : ∀ (fuel fi : ℕ) (m : Model K (Joint K))
    (r : Model K (Joint K) × ℕ), CInv inp L fi m → copyUpTo inp L (inp.name j) fuel fi m = .ok r () → CInv inp L r.2 r.1 := by
  intro fuel
  induction fuel with
  | zero => intro fi m r _ h; cases h
  | succ n ih =>
    intro fi m r hm h
    unfold copyUpTo at h
    split at h
    · cases h
    split at h
    · simp only [Res.ok.injEq, and_true] at h; subst h; exact hm
    split at h
    · cases h
    · rename_i g hg
      split at h
      · rename_i hn
        simp only [Res.ok.injEq, and_true] at h; subst h
        intro t ht f hf
        rcases Nat.lt_succ_iff_lt_or_eq.1 (Nat.lt_succ_of_le ht) with a | a
        · exact hm t (by omega) f hf
        · dsimp only at a
          rw [a, hg] at hf
          obtain rfl := Option.some.inj hf
          exact Or.inl ⟨j, hj, by simpa using hn⟩
      split at h
      · rename_i m' _ he
        refine ih _ _ _ ?_ h
        intro t ht f hf
        rcases Nat.lt_succ_iff_lt_or_eq.1 (Nat.lt_succ_of_le ht) with a | a
        · rcases hm t (by omega) f hf with b | b
          · exact Or.inl b
          · exact Or.inr (copyFrame_mono he b)
        · rw [a, hg] at hf
          obtain rfl := Option.some.inj hf
          have := List.mem_of_getElem? hg
          exact copyFrame_exist hI (hF.type g this) (hF.parent g this) he
      · cases h
      · cases h

theorem CInv.rest (hI : Inv inp) (hF : FHyp inp) : ∀ (l : List (Frame K)) (fi : ℕ) (m m' : Model K (Joint K)),
    l = inp.frames.drop fi →
    (∀ t < fi, ∀ f, inp.frames[t]? = some f → (∃ i ∈ L, f.name = inp.name i) ∨ m.existFrame f.name f.type = true) →
    copyRest inp L l m = .ok m' () → CInv inp L inp.frames.length m' := by
  intro l
  induction l with
  | nil =>
    intro fi m m' hl hm h
    simp only [copyRest, Res.ok.injEq, and_true] at h
    subst h
    have : inp.frames.length ≤ fi := by simpa using hl.symm
    intro t ht f hf
    have hlt : t < inp.frames.length := by
      by_contra hc
      rw [List.getElem?_eq_none (by omega)] at hf; cases hf
    exact hm t (by omega) f hf
  | cons f l ih =>
    intro fi m m' hl hm h
    have hfi : inp.frames[fi]? = some f := by
      have := congrArg (·[0]?) hl
      simpa using this.symm
    have hmem := List.mem_of_getElem? hfi
    unfold copyRest at h
    split at h
    · rename_i m1 _ he
      refine ih (fi + 1) m1 m' ?_ ?_ h
      · have := congrArg List.tail hl
        simpa using this
      · intro t ht g hg
        rcases Nat.lt_succ_iff_lt_or_eq.1 ht with a | a
        · rcases hm t a g hg with b | b
          · exact Or.inl b
          · exact Or.inr (copyFrame_mono he b)
        · rw [a, hfi] at hg
          obtain rfl := Option.some.inj hg
          exact copyFrame_exist hI (hF.type f hmem) (hF.parent f hmem) he
    · cases h
    · cases h

/-! ## the loop -/

/-- the invariant with the frames -/
structure WInv (inp : Model K (Joint K)) (L : List ℕ) (qref : List K) (j fi : ℕ) (m : Model K (Joint K)) : Prop where
  r : RInv inp L qref j m
  f : FInv inp L qref j m
  c : CInv inp L fi m

theorem modify_last {α : Type*} (l : List α) (x : α) (f : α → α) : (l ++ [x]).modify l.length f = l ++ [f x] := by
  induction l with
  | nil => rfl
  | cons y l ih => simp [ih]

theorem addJoint_frames' {P : Type*} (m : Model K P) (a : JointArgs K P) {m' : Model K P} {i : ℕ}
    (hs : m.addJoint a = .ok m' i) : m'.frames = m.frames := addJoint_frames m a (by rw [hs]; rfl)

theorem keepJoint_frames {s s' : RState K (Joint K)} {j : ℕ} {name : String} {e : JEntry (Joint K)} {p : ℕ × SE3 K × ℕ}
    (hs : Model.keepJoint inp s j name e p = .ok s' ()) : s'.m.frames = s.m.frames ∧ s'.fi = s.fi := by
  unfold Model.keepJoint at hs
  split at hs
  · cases hs
  split at hs
  · cases hs
  · cases hs
  rename_i m id ha
  unfold appendBodyToJoint at hs
  by_cases hc : id ≥ m.inertias.length
  · rw [if_pos (by omega)] at hs; cases hs
  rw [if_neg (by omega)] at hs
  dsimp only at hs
  split at hs
  · cases hs
  · obtain ⟨rfl, -⟩ := Res.ok.inj hs
    have := addJoint_frames' _ _ ha
    refine ⟨?_, rfl⟩
    dsimp only
    exact this

theorem WInv.lockJoint {s s' : RState K (Joint K)} {j : ℕ} (H : RHyp inp L) (hF : FHyp inp) (h : WInv inp L qref j s.fi s.m)
    (hj : j < inp.njoints) (hL : j ∈ L) {e : JEntry (Joint K)} (he : inp.joints[j]? = some e) {p : ℕ × SE3 K × ℕ}
    (hp : reducedParent s.m (inp.name (inp.par j)) = some (some p))
    (hs : Model.lockJoint inp L qref s j (inp.name j) e p = .ok s' ()) : WInv inp L qref (j + 1) s'.fi s'.m := by
  have hr1 := (h.r.lockJoint H hj hL he hp hs).1
  obtain ⟨h1, hpar, hatt⟩ := H.att_lock (qref := qref) hj hL
  obtain ⟨p1, p2⟩ := h.r.parent H (by omega) hpar hp
  unfold Model.lockJoint at hs
  split at hs
  · cases hs
  · cases hs
  rename_i m fi _ hc
  obtain ⟨hm, hf⟩ : RInv inp L qref j m ∧ FInv inp L qref j m :=
    copyUpTo_ok' (fun m => RInv inp L qref j m ∧ FInv inp L qref j m)
      (fun m f m' hf hm hc => FInv.copy H hF (by omega) hm hf hc) _ _ _ _ ⟨h.r, h.f⟩ hc
  have hcc : CInv inp L fi m := CInv.upTo H.inv hF hL _ _ _ _ h.c hc
  have hM : inp.jointM qref j = e.desc.payload.M (seg (fun k => qref.getD k 0) e.idx_q) := by
    simp [jointM, he]
  have hli : p.2.1 * inp.jointPlacements.getD j 1 * e.desc.payload.M (seg (fun k => qref.getD k 0) e.idx_q)
      = (inp.att L qref j).2 := by
    rw [hatt, p2, hM]; rfl
  have hp1 : p.1 = rank L (inp.att L qref j).1 := by rw [hatt, p1]
  dsimp only at hs
  rw [hli, hp1] at hs
  have hjt : rank L (inp.att L qref j).1 < m.njoints := by
    rw [hm.nj, hatt]
    have := H.att_lt (qref := qref) (p := inp.par j) (by omega)
    exact rank_lt (by omega) this.2
  have hex : m.existFrame (inp.name j) FIXED_JOINT = false := by
    unfold existFrame
    rw [List.any_eq_false]
    intro g hg hf
    simp only [filterFrame, Bool.and_eq_true, bne_iff_ne, beq_iff_eq] at hf
    have := hm.clean g hg hf.1 j h1 hj hf.2.symm
    omega
  unfold addFrame at hs
  rw [if_neg (by simpa using hjt)] at hs
  dsimp only at hs
  rw [hex] at hs
  simp only [Bool.false_eq_true, if_false, if_true, Res.ok.injEq, and_true] at hs
  subst hs
  suffices h : FInv inp L qref (j + 1) _ ∧ CInv inp L fi _ from ⟨hr1, h.1, h.2⟩
  clear hr1
  dsimp only
  rw [Nat.add_sub_cancel, ← hm.inv.lens.nframes, modify_last]
  refine ⟨⟨fun g hg i i1 hi hn => ?_, fun g hg => ?_⟩, fun t ht f hft => ?_⟩
  · rcases List.mem_append.1 hg with e | e
    · have := hf.before g e i i1 hi hn; omega
    · simp at e; subst e
      have := H.name_inj hi hj hn.symm
      omega
  · rcases List.mem_append.1 hg with e | e
    · rcases hf.shape g e with a | ⟨i, a, b, c⟩ | a
      · exact Or.inl a
      · exact Or.inr (Or.inl ⟨i, a, by omega, c⟩)
      · exact Or.inr (Or.inr a)
    · simp at e; subst e
      exact Or.inr (Or.inl ⟨j, h1, by omega, hL, rfl, rfl, rfl, rfl, rfl⟩)
  · rcases hcc t ht f hft with a | a
    · exact Or.inl a
    · refine Or.inr ?_
      unfold existFrame at a ⊢
      dsimp only
      rw [List.any_append, a]; rfl

theorem WInv.step {s s' : RState K (Joint K)} {j : ℕ} (H : RHyp inp L) (hF : FHyp inp) (hs : L.Pairwise (· < ·))
    (h : WInv inp L qref j s.fi s.m) (hc : CurOk L j s.cur) (h1 : 1 ≤ j) (hj : j < inp.njoints)
    (hst : reduceStep inp L qref s j = .ok s' ()) : WInv inp L qref (j + 1) s'.fi s'.m ∧ CurOk L (j + 1) s'.cur := by
  have hst0 := hst
  unfold reduceStep at hst
  dsimp only at hst
  rw [name_getElem H.inv hj] at hst
  have hjl : j < inp.joints.length := by rw [H.inv.lens.joints]; exact hj
  rw [List.getElem?_eq_getElem hjl] at hst
  dsimp only at hst
  refine ⟨?_, (h.r.step H hs hc h1 hj hst0).2⟩
  have hr := (h.r.step H hs hc h1 hj hst0).1
  split at hst
  · cases hst
  · cases hst
  · rename_i p hp
    by_cases hjL : j ∈ L
    · rw [if_pos ((hc.iff hs h1).2 hjL)] at hst
      exact h.lockJoint H hF hj hjL (List.getElem?_eq_getElem hjl) hp hst
    · rw [if_neg (fun e => hjL ((hc.iff hs h1).1 e))] at hst
      have hfr := keepJoint_frames hst
      refine ⟨hr, ⟨fun g hg i i1 hi hn => ?_, fun g hg => ?_⟩, fun t ht f hft => ?_⟩
      · rw [hfr.1] at hg
        have := h.f.before g hg i i1 hi hn
        omega
      · rw [hfr.1] at hg
        rcases h.f.shape g hg with a | ⟨i, a, b, c⟩ | a
        · exact Or.inl a
        · exact Or.inr (Or.inl ⟨i, a, by omega, c⟩)
        · exact Or.inr (Or.inr a)
      · rw [hfr.2] at ht
        unfold existFrame
        rw [hfr.1]
        exact h.c t ht f hft

theorem WInv.loop (H : RHyp inp L) (hF : FHyp inp) (hs : L.Pairwise (· < ·)) : ∀ (k j : ℕ) (s s' : RState K (Joint K)),
    1 ≤ j → j + k = inp.njoints → WInv inp L qref j s.fi s.m → CurOk L j s.cur →
    reduceLoop inp L qref (List.range' j k) s = .ok s' () → WInv inp L qref inp.njoints s'.fi s'.m := by
  intro k
  induction k with
  | zero =>
    intro j s s' _ hk h _ hl
    simp only [List.range'_zero, reduceLoop, Res.ok.injEq, and_true] at hl
    subst hl
    rw [← hk]; exact h
  | succ k ih =>
    intro j s s' h1 hk h hc hl
    rw [List.range'_succ] at hl
    unfold reduceLoop at hl
    split at hl
    · rename_i s1 _ he
      obtain ⟨a, b⟩ := h.step H hF hs hc h1 (by omega) he
      exact ih (j + 1) s1 s' (by omega) (by omega) a b hl
    · cases hl
    · cases hl

/-- the joints are as specified whatever the frames -/
theorem RInv.rest (H : RHyp inp L) {j : ℕ} {m m' : Model K (Joint K)} (h : RInv inp L qref j m) {l : List (Frame K)}
    (hl : ∀ f ∈ l, f ∈ inp.frames) (hc : copyRest inp L l m = .ok m' ()) : RInv inp L qref j m' := by
  refine copyRest_ok (RInv inp L qref j) ?_ l m m' hl h hc
  intro m f g hf hgn hgt hm
  refine hm.frame g fun ht i h1 hi hname => ?_
  rw [hgt] at ht
  rw [hgn] at hname
  exact absurd hname (H.fixed f hf ht i h1 hi)

/-! ## only membership in the list matters -/

theorem keptBefore_congr {A B : List ℕ} (h : ∀ i, i ∈ A ↔ i ∈ B) (j : ℕ) : keptBefore A j = keptBefore B j := by
  unfold keptBefore; simp only [h]

theorem rank_congr {A B : List ℕ} (h : ∀ i, i ∈ A ↔ i ∈ B) : rank A = rank B := by
  funext j; unfold rank; rw [keptBefore_congr h]

theorem attach_congr {A B : List ℕ} (h : ∀ i, i ∈ A ↔ i ∈ B) (par : ℕ → ℕ) (pl M : ℕ → SE3 K) (j : ℕ) :
    attach par pl M A j = attach par pl M B j := by
  induction j using Nat.strong_induction_on with
  | _ j ih =>
    by_cases hj : j ∈ A ∧ par j < j
    · rw [attach_lock hj.1 hj.2, attach_lock ((h j).1 hj.1) hj.2, ih _ hj.2]
    · unfold attach
      rw [dif_neg hj, dif_neg (by rw [← h]; exact hj)]

theorem att_congr {A B : List ℕ} (h : ∀ i, i ∈ A ↔ i ∈ B) : inp.att A qref = inp.att B qref := by
  funext j; exact attach_congr h _ _ _ j

theorem RInv.congr {A B : List ℕ} (h : ∀ i, i ∈ A ↔ i ∈ B) {j : ℕ} {m : Model K (Joint K)} (hr : RInv inp A qref j m) :
    RInv inp B qref j m := by
  have h1 := rank_congr h
  have h2 := att_congr (inp := inp) (qref := qref) h
  have h3 := keptBefore_congr h
  constructor
  · exact hr.inv
  · rw [← h1]; exact hr.nj
  · rw [← h3]; exact hr.names
  · simp only [← h1, ← h2, ← h]; exact hr.kept
  · simp only [← h1, ← h]; exact hr.mim
  · simp only [← h1, ← h2, ← h]; exact hr.fix
  · simp only [← h]; exact hr.clean
  · exact hr.arm
  · simp only [← h1, ← h2, ← h]; exact hr.iner

/-! ## the function -/

theorem buildReducedModel_run {p0 : Joint K} {lock : List ℕ} {red : Model K (Joint K)}
    (h : buildReducedModel inp p0 lock qref = .ok red ()) :
    qref.length = inp.nq ∧ lock.length ≤ inp.njoints ∧ lock.Nodup ∧ ∃ (L : List ℕ) (s : RState K (Joint K)),
      (∀ i, i ∈ L ↔ i ∈ lock) ∧ L.Pairwise (· < ·) ∧
      reduceLoop inp L qref (List.range' 1 (inp.njoints - 1)) ⟨reduceInit inp p0, 0, 0⟩ = .ok s () ∧
      copyRest inp L (inp.frames.drop s.fi) s.m = .ok red () := by
  unfold buildReducedModel at h
  dsimp only at h
  split at h
  · cases h
  rename_i h1
  split at h
  · cases h
  rename_i h2
  split at h
  · cases h
  rename_i h3
  have hp : (lock.insertionSort (· ≤ ·)).Pairwise (· < ·) := List.isChain_iff_pairwise.1 (not_not.1 h3)
  have hperm := List.perm_insertionSort (· ≤ ·) lock
  have hnd : lock.Nodup := hperm.nodup_iff.1 (hp.imp fun h => ne_of_lt h)
  split at h
  · cases h
  · cases h
  · rename_i s _ hs
    exact ⟨not_not.1 h1, not_not.1 h2, hnd, _, s, fun i => hperm.mem_iff, hp, hs, h⟩

theorem RHyp.congr {A B : List ℕ} (h : ∀ i, i ∈ A ↔ i ∈ B) (H : RHyp inp A) : RHyp inp B :=
  ⟨H.inv, H.j0, H.names, H.fixed, H.mimic, H.mimicked, H.mass, fun h0 => H.lock ((h 0).2 h0)⟩

theorem curOk_init {L : List ℕ} (h0 : 0 ∉ L) : CurOk L 1 0 := by
  refine ⟨fun k _ hk => by omega, fun k hk _ => ?_⟩
  rcases Nat.eq_zero_or_pos L[k] with e | e
  · exact absurd (e ▸ List.getElem_mem hk) h0
  · exact e

theorem buildReducedModel_inv {p0 : Joint K} {lock : List ℕ} {red : Model K (Joint K)} (H : RHyp inp lock)
    (hu : ∀ i, 1 ≤ i → i < inp.njoints → inp.name i ≠ "universe")
    (h : buildReducedModel inp p0 lock qref = .ok red ()) : RInv inp lock qref inp.njoints red := by
  obtain ⟨-, -, -, L, s, hL, hp, hl, hc⟩ := buildReducedModel_run h
  have H' := H.congr (fun i => (hL i).symm)
  have := RInv.loop H' hp (inp.njoints - 1) 1 _ s le_rfl (by have := H.inv.lens.pos; omega) (RInv.init H' p0 hu)
    (curOk_init H'.lock) hl
  exact (this.rest H' (fun f hf => List.mem_of_mem_drop hf) hc).congr hL

theorem FInv.congr {A B : List ℕ} (h : ∀ i, i ∈ A ↔ i ∈ B) {j : ℕ} {m : Model K (Joint K)} (hr : FInv inp A qref j m) :
    FInv inp B qref j m := by
  have h1 := rank_congr h
  have h2 := att_congr (inp := inp) (qref := qref) h
  refine ⟨hr.before, fun g hg => ?_⟩
  rcases hr.shape g hg with a | ⟨i, a, b, c, d⟩ | ⟨f, hf, a⟩
  · exact Or.inl a
  · refine Or.inr (Or.inl ⟨i, a, b, (h i).1 c, d.name, d.type, d.inertia, ?_, ?_⟩)
    · rw [← h1, ← h2]; exact d.parentJoint
    · rw [← h2]; exact d.placement
  · refine Or.inr (Or.inr ⟨f, hf, a.name, a.type, a.inertia, ?_, ?_⟩)
    · rw [← h1, ← h2]; exact a.parentJoint
    · rw [← h2]; exact a.placement

theorem buildReducedModel_frames {p0 : Joint K} {lock : List ℕ} {red : Model K (Joint K)} (H : RHyp inp lock) (hF : FHyp inp)
    (hu : ∀ i, 1 ≤ i → i < inp.njoints → inp.name i ≠ "universe") (h0 : inp.frames[0]? = some universeFrame)
    (h : buildReducedModel inp p0 lock qref = .ok red ()) :
    FInv inp lock qref inp.njoints red ∧ CInv inp lock inp.frames.length red := by
  obtain ⟨-, -, -, L, s, hL, hp, hl, hc⟩ := buildReducedModel_run h
  have H' := H.congr (fun i => (hL i).symm)
  have hfr : (reduceInit inp p0).frames = [universeFrame] := rfl
  have hi : WInv inp L qref 1 0 (reduceInit inp p0) := by
    refine ⟨RInv.init H' p0 hu, ⟨fun g hg i i1 hi hn => ?_, fun g hg => ?_⟩, fun t ht f hf => ?_⟩
    · rw [hfr] at hg; simp at hg; subst hg
      exact absurd hn.symm (hu i i1 hi)
    · rw [hfr] at hg; simp at hg; exact Or.inl hg
    · obtain rfl : t = 0 := by omega
      rw [h0] at hf
      obtain rfl := Option.some.inj hf
      refine Or.inr ?_
      unfold existFrame; rw [hfr]; simp [universeFrame, filterFrame, FIXED_JOINT]
  have := WInv.loop H' hF hp (inp.njoints - 1) 1 ⟨reduceInit inp p0, 0, 0⟩ s le_rfl (by have := H.inv.lens.pos; omega) hi
    (curOk_init H'.lock) hl
  constructor
  · refine FInv.congr hL ?_
    exact (copyRest_ok' (fun m => RInv inp L qref inp.njoints m ∧ FInv inp L qref inp.njoints m)
      (fun m f m' hf hm hc => FInv.copy H' hF le_rfl hm hf hc) _ _ _ (fun f hf => List.mem_of_mem_drop hf) ⟨this.r, this.f⟩ hc).2
  · have := CInv.rest H.inv hF _ s.fi _ _ rfl (fun t ht f hf => this.c t (by omega) f hf) hc
    intro t ht f hf
    simp only [← hL]
    exact this t ht f hf

end Model
end Pin
