import Verif.Model.Append
import Verif.Model.ReduceReach

/-! # Lemmas on `appendModel`: copy of the frames, copy of one joint -/

set_option linter.unusedSectionVars false
set_option linter.unusedSimpArgs false
set_option linter.unusedVariables false

namespace Pin
open Finset

theorem Res.bind_ok {S A B : Type*} {r : Res S A} {f : S → A → Res S B} {s : S} {b : B} (h : r.bind f = .ok s b) :
    ∃ s1 a, r = .ok s1 a ∧ f s1 a = .ok s b := by
  cases r with
  | ok s1 a => exact ⟨s1, a, rfl, h⟩
  | throw s1 => cases h
  | ub => cases h

namespace Model
variable {K P : Type*} [Field K] [LinearOrder K] [IsStrictOrderedRing K] [HasEps K]

/-- `g` is the copy of the frame `f` on joint `jid` -/
structure FrameAt (jid : ℕ) (pl : SE3 K → SE3 K) (f g : Frame K) : Prop where
  name : g.name = f.name
  type : g.type = f.type
  inertia : g.inertia = f.inertia
  parentJoint : g.parentJoint = jid
  placement : g.placement = pl f.placement

theorem subAssign_mass (X Y : Inertia K) : (X.subAssign Y).mass = X.mass - Y.mass := rfl

theorem zero_inertia_mass : (0 : Inertia K).mass = 0 := rfl

theorem zero_inertia_matrix : (0 : Inertia K).matrix = 0 := by
  ext <;> simp [Inertia.matrix, M3.alphaSkew, Sym3.subAlphaSkewSquare, Sym3.matrix]

/-- what a copy of frames changes -/
structure FrameCopy (jid : ℕ) (pl : SE3 K → SE3 K) (l : List (Frame K)) (m m' : Model K P) : Prop where
  ex : ∃ F I, m' = { m with frames := m.frames ++ F, nframes := m.nframes + F.length, inertias := I } ∧
    List.Forall₂ (FrameAt jid pl) l F ∧ I.length = m.inertias.length ∧
    (∀ k, k ≠ jid → I.getD k 0 = m.inertias.getD k 0) ∧
    (jid < m.inertias.length → (I.getD jid 0).mass = (m.inertias.getD jid 0).mass ∧
      ((∀ f ∈ l, f.inertia = 0) → MassFine (m.inertias.getD jid 0).mass →
        (I.getD jid 0).matrix = (m.inertias.getD jid 0).matrix))

theorem getD_modify_ne {α : Type*} (l : List α) (f : α → α) (d : α) {i j : ℕ} (h : j ≠ i) :
    (l.modify i f).getD j d = l.getD j d := by
  simp [List.getD, List.getElem?_modify, Ne.symm h]

theorem appendFrame_ok {inp m m' : Model K P} {jin jid pf0 : ℕ} {pl : SE3 K → SE3 K} {f : Frame K}
    (h : appendFrame inp jin jid pf0 pl f m = .ok m' ()) :
    FrameCopy jid pl (if f.parentJoint = jin then [f] else []) m m' := by
  unfold appendFrame at h
  split at h
  · rename_i hj
    obtain ⟨rfl, -⟩ := Res.ok.inj h
    rw [if_neg hj]
    exact ⟨[], m.inertias, by simp, .nil, rfl, fun _ _ => rfl, fun _ => ⟨rfl, fun _ _ => rfl⟩⟩
  rename_i hj
  rw [if_pos (not_not.1 hj)]
  split at h
  · cases h
  rename_i hex
  split at h
  · cases h
  · cases h
  rename_i pf hpf
  dsimp only at h
  split at h
  · rename_i m1 id hadd
    obtain ⟨rfl, -⟩ := Res.ok.inj h
    -- the frame is added
    have key : ∀ I0 : List (Inertia K), I0.length = m.inertias.length →
        ({ m with inertias := I0 } : Model K P).addFrame { f with parentJoint := jid, parentFrame := pf, placement := pl f.placement } = .ok m1 id →
        m1 = { m with
          frames := m.frames ++ [{ f with parentJoint := jid, parentFrame := pf, placement := pl f.placement }]
          nframes := m.nframes + 1
          inertias := I0.modify jid (fun Y => Y + f.inertia.act (pl f.placement)) } := by
      intro I0 hl h0
      unfold addFrame at h0
      split at h0
      · cases h0
      have : ({ m with inertias := I0 } : Model K P).existFrame f.name f.type = m.existFrame f.name f.type := rfl
      dsimp only at h0
      rw [this, if_neg hex] at h0
      obtain ⟨rfl, -⟩ := Res.ok.inj h0
      rfl
    by_cases hz : f.inertia = 0
    · rw [if_neg (not_not.2 hz)] at hadd
      have := key m.inertias rfl hadd
      subst this
      refine ⟨[_], _, rfl, .cons ⟨rfl, rfl, rfl, rfl, rfl⟩ .nil, by simp, fun k hk => getD_modify_ne _ _ _ hk, fun hlt => ?_⟩
      rw [getD_modify _ _ _ _ _ hlt, if_pos rfl, hz]
      obtain ⟨z1, z2⟩ := zero_act (K := K) (pl f.placement)
      refine ⟨?_, fun _ hm => ?_⟩
      · change _ + ((0 : Inertia K).act (pl f.placement)).mass = _
        rw [z2, add_zero]
      · rw [(fine_add hm (by rw [z2]; exact massFine_zero)).1, z1, add_zero]
    · rw [if_pos hz] at hadd
      have := key _ (by simp) hadd
      subst this
      refine ⟨[_], _, rfl, .cons ⟨rfl, rfl, rfl, rfl, rfl⟩ .nil, by simp, fun k hk => ?_, fun hlt => ?_⟩
      · rw [getD_modify_ne _ _ _ hk, getD_modify_ne _ _ _ hk]
      · rw [getD_modify _ _ _ _ _ (by simpa using hlt), if_pos rfl, getD_modify _ _ _ _ _ hlt, if_pos rfl]
        refine ⟨?_, fun h0 => absurd (h0 f (by simp)) hz⟩
        change (_ - _) + _ = _
        rw [act_mass]; ring
  · cases h
  · cases h

theorem FrameCopy.trans {jid : ℕ} {pl : SE3 K → SE3 K} {l l' : List (Frame K)} {m m1 m' : Model K P}
    (h : FrameCopy jid pl l m m1) (h' : FrameCopy jid pl l' m1 m') : FrameCopy jid pl (l ++ l') m m' := by
  obtain ⟨F, I, rfl, a1, a2, a3, a4⟩ := h
  obtain ⟨F', I', rfl, b1, b2, b3, b4⟩ := h'
  dsimp only at b2 b3 b4
  refine ⟨F ++ F', I', ?_, ?_, b2.trans a2, fun k hk => (b3 k hk).trans (a3 k hk), fun hlt => ?_⟩
  · simp [List.append_assoc, Nat.add_assoc]
  · exact List.rel_append a1 b1
  · obtain ⟨c1, c2⟩ := a4 hlt
    obtain ⟨d1, d2⟩ := b4 (by rw [a2]; exact hlt)
    refine ⟨d1.trans c1, fun hz hm => ?_⟩
    rw [d2 (fun f hf => hz f (by simp [hf])) (by rw [c1]; exact hm), c2 (fun f hf => hz f (by simp [hf])) hm]

theorem appendFrames_ok {inp : Model K P} {jin jid pf0 : ℕ} {pl : SE3 K → SE3 K} : ∀ (l : List (Frame K)) (m m' : Model K P),
    appendFrames inp jin jid pf0 pl l m = .ok m' () → FrameCopy jid pl (l.filter (fun f => f.parentJoint = jin)) m m' := by
  intro l
  induction l with
  | nil =>
    intro m m' h
    obtain ⟨rfl, -⟩ := Res.ok.inj h
    exact ⟨[], m.inertias, by simp, by simp, rfl, fun _ _ => rfl, fun _ => ⟨rfl, fun _ _ => rfl⟩⟩
  | cons f l ih =>
    intro m m' h
    obtain ⟨m1, _, h1, h2⟩ := Res.bind_ok h
    have := (appendFrame_ok h1).trans (ih _ _ h2)
    rw [List.filter_cons]
    by_cases hj : f.parentJoint = jin
    · simpa [hj] using this
    · simpa [hj] using this

/-! ## one joint -/

/-- what the copy of joint `i` of `inp` under `parent` at `pl` changes, frames not yet copied; `d` is its description -/
structure Copied (inp m m' : Model K P) (i pa : ℕ) (M : SE3 K) (d : JDesc P) : Prop where
  inv : Inv m'
  nj : m'.njoints = m.njoints + 1
  parent : pa < m.njoints
  names : m'.names = m.names ++ [inp.name i]
  par : m'.parents = m.parents ++ [pa]
  pl : m'.jointPlacements = m.jointPlacements ++ [M]
  frames : m'.frames = m.frames
  arm : (∀ x ∈ m.armature, x = 0) → ∀ x ∈ m'.armature, x = 0
  new : SameJoint inp m' i m.njoints
  old : ∀ (src : Model K P) (k0 k : ℕ), k < m.njoints → (∀ e : JEntry P, src.joints[k0]? = some e → e.desc.mimic ≠ none →
    e.desc.nq = 0 ∧ e.desc.nv = 0) → SameJoint src m k0 k → SameJoint src m' k0 k
  joints : ∃ o, m'.joints = m.joints ++ [o] ∧ o.desc = d ∧ ∀ x, d.mimic = some x → o.idx_q = x.2.1 ∧ o.idx_v = x.2.2
  inertias : m'.inertias = m.inertias ++ [0 + (inp.inertia i).act 1]

theorem modify_append_last {α : Type*} (l : List α) (x : α) (f : α → α) {n : ℕ} (h : n = l.length) :
    (l ++ [x]).modify n f = l ++ [f x] := by
  subst h
  induction l with
  | nil => rfl
  | cons y l ih => simp [List.modify_succ_cons, ih]

theorem copied {inp m m1 m' : Model K P} (hin : Inv inp) (h : Inv m) {i : ℕ} {e o : JEntry P} (he : inp.joints[i]? = some e)
    (hmim : e.desc.mimic ≠ none → e.desc.nq = 0 ∧ e.desc.nv = 0) {d : JDesc P}
    (hd : d.payload = e.desc.payload ∧ d.nq = e.desc.nq ∧ d.nv = e.desc.nv ∧ d.nvx = e.desc.nvx ∧
      (d.mimic = none ↔ e.desc.mimic = none))
    {parent : ℕ} {pl : SE3 K} {a : JointArgs K P}
    (ha : a = ⟨parent, d, pl, inp.name i, selV e inp.effortLimit, selV e inp.velocityLimit, selQ e inp.lowerPositionLimit,
      selQ e inp.upperPositionLimit, selV e inp.friction, selV e inp.damping⟩)
    (hA : ArgsOk m a) (hok : OpOk m (.addJoint a)) (ad : Added m a o m1)
    (hidx : ∀ x, d.mimic = some x → o.idx_q = x.2.1 ∧ o.idx_v = x.2.2)
    (hm : m' = { m1 with
      inertias := m1.inertias.modify m.njoints (fun X => X + (inp.inertia i).act 1)
      nbodies := m1.nbodies + 1
      rotorInertia := setSeg m1.rotorInertia o.idx_v (selV e inp.rotorInertia)
      rotorGearRatio := setSeg m1.rotorGearRatio o.idx_v (selV e inp.rotorGearRatio) }) :
    Copied inp m m' i parent pl d := by
  have hI := inv_added h hA hok ad
  obtain ⟨l1, l2, l3, l4, l5, l6, l7⟩ := hA
  obtain ⟨d1, d2, d3, d4, d5⟩ := hd
  have hl := h.lens
  have hil := hin.lens
  subst ha
  dsimp only at l1 l2 l3 l4 l5 l6 l7
  have lenV : ∀ x : List K, x.length = inp.nv → (selV e x).length = d.nv := by
    intro x hx
    rw [← l1]
    simp [selV, hx, hil.effortLimit]
  have od := ad.desc
  have idv : d.nv = 0 ∨ o.idx_v = m.nv := by
    by_cases hc : d.mimic = none
    · exact Or.inr (ad.plain hc).2
    · refine Or.inl ?_
      rw [d3]; exact (hmim fun hn => hc (d5.2 hn)).2
  have idq : d.nq = 0 ∨ o.idx_q = m.nq := by
    by_cases hc : d.mimic = none
    · exact Or.inr (ad.plain hc).1
    · refine Or.inl ?_
      rw [d2]; exact (hmim fun hn => hc (d5.2 hn)).1
  have rI : setSeg m1.rotorInertia o.idx_v (selV e inp.rotorInertia) = m.rotorInertia ++ selV e inp.rotorInertia := by
    rw [ad.rotorInertia]
    apply setSeg_last
    · simp [lenV _ hil.rotorInertia]
    · rcases idv with hv | hv
      · left; apply List.length_eq_zero_iff.1; rw [lenV _ hil.rotorInertia, hv]
      · right; rw [hv, hl.rotorInertia]
  have rG : setSeg m1.rotorGearRatio o.idx_v (selV e inp.rotorGearRatio)
      = m.rotorGearRatio ++ selV e inp.rotorGearRatio := by
    rw [ad.rotorGearRatio]
    apply setSeg_last
    · simp [lenV _ hil.rotorGearRatio]
    · rcases idv with hv | hv
      · left; apply List.length_eq_zero_iff.1; rw [lenV _ hil.rotorGearRatio, hv]
      · right; rw [hv, hl.rotorGearRatio]
  rw [rI, rG] at hm
  subst hm
  refine ⟨?_, ad.njoints, l7, ad.names, ad.parents, ad.jointPlacements, ad.frames, ?_, ?_, ?_,
    ⟨o, ad.joints, od, hidx⟩, ?_⟩
  · refine inv_rotor (inv_frames hI _ m1.frames m1.nframes (m1.nbodies + 1) (List.length_modify ..) hI.lens.nframes) _ _ ?_ ?_
    · dsimp only; rw [ad.nv]; simp [hl.rotorInertia, lenV _ hil.rotorInertia]
    · dsimp only; rw [ad.nv]; simp [hl.rotorGearRatio, lenV _ hil.rotorGearRatio]
  · dsimp only
    rw [ad.armature]
    intro h0 x hx
    rcases List.mem_append.1 hx with hx | hx
    · exact h0 x hx
    · exact (List.mem_replicate.1 hx).2
  · have dv : o.desc.nv = 0 ∨ o.idx_v = m.nv := by rw [od]; exact idv
    have dq : o.desc.nq = 0 ∨ o.idx_q = m.nq := by rw [od]; exact idq
    refine ⟨?_, e, o, he, ?_, ?_, ?_, ?_, ?_, ?_, ?_, ?_, ?_, ?_, ?_, ?_, ?_, ?_⟩
    · unfold Model.name; dsimp only
      rw [ad.names, getD_append_eq _ _ _ (by rw [hl.names])]; rfl
    · dsimp only; rw [ad.joints, ← hl.joints]; simp
    · rw [od]; exact d1
    · rw [od]; exact d2
    · rw [od]; exact d3
    · rw [od]; exact d4
    · rw [od]; exact d5
    · dsimp only; rw [ad.effortLimit]; exact selV_last (by rw [l1, od]) (by rw [hl.effortLimit]; exact dv)
    · dsimp only; rw [ad.velocityLimit]; exact selV_last (by rw [l2, od]) (by rw [hl.velocityLimit]; exact dv)
    · dsimp only; rw [ad.lowerPositionLimit]; exact selQ_last (by rw [l3, od]) (by rw [hl.lowerPositionLimit]; exact dq)
    · dsimp only; rw [ad.upperPositionLimit]; exact selQ_last (by rw [l4, od]) (by rw [hl.upperPositionLimit]; exact dq)
    · dsimp only; rw [ad.friction]; exact selV_last (by rw [l5, od]) (by rw [hl.friction]; exact dv)
    · dsimp only; rw [ad.damping]; exact selV_last (by rw [l6, od]) (by rw [hl.damping]; exact dv)
    · dsimp only; exact selV_last (by rw [lenV _ hil.rotorInertia, od]) (by rw [hl.rotorInertia]; exact dv)
    · dsimp only; exact selV_last (by rw [lenV _ hil.rotorGearRatio, od]) (by rw [hl.rotorGearRatio]; exact dv)
  · rintro src k0 k hk hz ⟨a, e0, o0, b1, b2, b3, b4, b5, b6, b7, b8, b9, b10, b11, b12, b13, b14, b15⟩
    have sv : o0.desc.nv = 0 ∨ o0.idx_v + o0.desc.nv ≤ m.nv := by
      by_cases hc : o0.desc.mimic = none
      · exact Or.inr (seg_in h b2 hc).1
      · left; rw [b5]; exact (hz e0 b1 fun hn => hc (b7.2 hn)).2
    have sq : o0.desc.nq = 0 ∨ o0.idx_q + o0.desc.nq ≤ m.nq := by
      by_cases hc : o0.desc.mimic = none
      · exact Or.inr (seg_in h b2 hc).2
      · left; rw [b4]; exact (hz e0 b1 fun hn => hc (b7.2 hn)).1
    refine ⟨?_, e0, o0, b1, ?_, b3, b4, b5, b6, b7, ?_, ?_, ?_, ?_, ?_, ?_, ?_, ?_⟩
    · unfold Model.name at a ⊢; dsimp only
      rw [ad.names, getD_append_lt _ _ _ (by rw [hl.names]; exact hk)]; exact a
    · dsimp only
      rw [ad.joints, List.getElem?_append_left (by rw [hl.joints]; exact hk)]; exact b2
    · dsimp only; rw [ad.effortLimit, selV_append (by rw [hl.effortLimit]; exact sv)]; exact b8
    · dsimp only; rw [ad.velocityLimit, selV_append (by rw [hl.velocityLimit]; exact sv)]; exact b9
    · dsimp only; rw [ad.lowerPositionLimit, selQ_append (by rw [hl.lowerPositionLimit]; exact sq)]; exact b10
    · dsimp only; rw [ad.upperPositionLimit, selQ_append (by rw [hl.upperPositionLimit]; exact sq)]; exact b11
    · dsimp only; rw [ad.friction, selV_append (by rw [hl.friction]; exact sv)]; exact b12
    · dsimp only; rw [ad.damping, selV_append (by rw [hl.damping]; exact sv)]; exact b13
    · dsimp only; rw [selV_append (by rw [hl.rotorInertia]; exact sv)]; exact b14
    · dsimp only; rw [selV_append (by rw [hl.rotorGearRatio]; exact sv)]; exact b15
  · dsimp only
    rw [ad.inertias, modify_append_last _ _ _ hl.inertias.symm]

end Model
end Pin
