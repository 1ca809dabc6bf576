import Verif.Model.ReduceFrames
import Verif.Model.ReduceDyn

/-! # What every constructed model satisfies, for `buildReducedModel` -/

set_option linter.unusedSectionVars false
set_option linter.unusedVariables false

namespace Pin
open Finset
namespace Model
variable {K P : Type*} [Field K] [LinearOrder K] [HasEps K]

structure Base (p0 : P) (m : Model K P) : Prop where
  j0 : m.joints[0]? = some ⟨⟨p0, 0, 0, 0, none⟩, 0, 0, 0, 0⟩
  n0 : m.names[0]? = some "universe"
  f0 : m.frames[0]? = some universeFrame
  fpar : ∀ f ∈ m.frames, f.parentJoint < m.njoints
  mimic : ∀ (i : ℕ) (e : JEntry P) (x : ℕ × ℕ × ℕ), m.joints[i]? = some e → e.desc.mimic = some x →
    e.desc.nq = 0 ∧ e.desc.nv = 0 ∧ x.1 < m.njoints

theorem Base.addFrame {p0 : P} {m m' : Model K P} (h : Base p0 m) (f : Frame K) (b : Bool)
    (hs : Res.state (m.addFrame f b) = some m') : Base p0 m' := by
  unfold Model.addFrame at hs
  split at hs
  · simp [Res.state] at hs; exact hs ▸ h
  · rename_i hp
    split at hs
    · split at hs <;> simp [Res.state] at hs <;> exact hs ▸ h
    · simp [Res.state] at hs
      subst hs
      refine ⟨h.j0, h.n0, ?_, fun g hg => ?_, h.mimic⟩
      · have : 0 < m.frames.length := by
          by_contra hc
          have := h.f0
          rw [List.getElem?_eq_none (by omega)] at this; cases this
        dsimp only
        rw [List.getElem?_append_left this]; exact h.f0
      · dsimp only at hg ⊢
        rcases List.mem_append.1 hg with e | e
        · exact h.fpar g e
        · simp at e; subst e; exact not_not.1 hp

theorem Base.step {p0 : P} {m m' : Model K P} {op : Op K P} (hi : Inv m) (h : Base p0 m) (hok : OpOk m op)
    (hs : m.step op = some m') : Base p0 m' := by
  cases op with
  | addJoint a =>
    simp only [Model.step] at hs
    rcases addJoint_cases m a hi hok with ⟨-, ht⟩ | ⟨hA, e, m1, ha, ad⟩
    · rw [ht] at hs; simp [Res.state] at hs; exact hs ▸ h
    · rw [ha] at hs
      simp only [Res.state, Option.some.injEq] at hs
      subst hs
      have hl := hi.lens
      refine ⟨?_, ?_, ?_, fun g hg => ?_, fun i e' x he hx => ?_⟩
      · rw [ad.joints, List.getElem?_append_left (by have := hl.pos; have := hl.joints; omega)]; exact h.j0
      · rw [ad.names, List.getElem?_append_left (by have := hl.pos; have := hl.names; omega)]; exact h.n0
      · rw [ad.frames]; exact h.f0
      · rw [ad.frames] at hg; have := h.fpar g hg; rw [ad.njoints]; omega
      · rw [ad.joints] at he
        rw [ad.njoints]
        by_cases hlt : i < m.joints.length
        · rw [List.getElem?_append_left hlt] at he
          obtain ⟨a1, a2, a3⟩ := h.mimic i e' x he hx
          exact ⟨a1, a2, by omega⟩
        · rw [List.getElem?_append_right (by omega)] at he
          have : i - m.joints.length = 0 := by
            by_contra hc
            rw [List.getElem?_eq_none (by simp; omega)] at he; cases he
          rw [this] at he
          obtain rfl := Option.some.inj he
          rw [ad.desc] at hx ⊢
          obtain ⟨a1, a2, a3⟩ := hok x hx
          exact ⟨a1, a2, by omega⟩
  | addFrame f b => exact h.addFrame f b hs
  | addJointFrame j p =>
    simp only [Model.step] at hs
    unfold addJointFrame at hs
    split at hs
    · simp [Res.state] at hs; exact hs ▸ h
    · split at hs
      · simp [Res.state] at hs; exact hs ▸ h
      · exact h.addFrame _ _ hs
  | appendBody j Y M =>
    simp only [Model.step] at hs
    unfold appendBodyToJoint at hs
    split at hs
    · simp [Res.state] at hs
    · simp [Res.state] at hs; subst hs; exact ⟨h.j0, h.n0, h.f0, h.fpar, h.mimic⟩
  | addBodyFrame s j M p =>
    simp only [Model.step] at hs
    unfold addBodyFrame at hs
    split at hs
    · split at hs
      · simp [Res.state] at hs
      · split at hs
        · simp [Res.state] at hs; exact hs ▸ h
        · split at hs
          · simp [Res.state] at hs; exact hs ▸ h
          · exact h.addFrame _ _ hs
    · split at hs
      · simp [Res.state] at hs; exact hs ▸ h
      · exact h.addFrame _ _ hs

theorem Reach.base {p0 : P} {m : Model K P} (h : Reach p0 m) : Base p0 m := by
  induction h with
  | init =>
    refine ⟨rfl, rfl, rfl, fun f hf => ?_, fun i e x he hx => ?_⟩
    · change f ∈ [universeFrame] at hf
      simp at hf; subst hf
      exact Nat.zero_lt_one
    · change [(⟨⟨p0, 0, 0, 0, none⟩, 0, 0, 0, 0⟩ : JEntry P)][i]? = some e at he
      have : i = 0 := by
        by_contra hc
        rw [List.getElem?_eq_none (by simp; omega)] at he; cases he
      subst this
      obtain rfl := Option.some.inj he
      cases hx
  | step h hok hs ih => exact Base.step h.inv ih hok hs

theorem Built.inv {p0 : P} {inp : Model K P} (h : Built p0 inp) : Inv inp := by
  obtain ⟨m, p, hr, ⟨f1, f2, f3, f4, f5, f6, f7, f8, f9⟩, rfl⟩ := h
  have h := hr.inv
  have hl := h.lens
  exact ⟨⟨hl.pos, hl.inertias, hl.jointPlacements, hl.joints, hl.idx_qs, hl.nqs, hl.idx_vs,
    hl.nvs, hl.idx_vxs, hl.nvxs, hl.parents, hl.children, hl.names, hl.supports, hl.mimicSupports,
    hl.subtrees, hl.nframes, f1, f2, f3, f4, f5, f6, f7, f8, f9⟩,
    h.par, h.qsum, h.vsum, h.vxsum, h.q0, h.v0, h.vx0, h.idxq, h.idxv, h.idxvx, h.ent, h.chi, h.sup0,
    h.sup, h.sub⟩

theorem Built.base {p0 : P} {inp : Model K P} (h : Built p0 inp) : Base p0 inp := by
  obtain ⟨m, p, hr, -, rfl⟩ := h
  have h := hr.base
  exact ⟨h.j0, h.n0, h.f0, h.fpar, h.mimic⟩

theorem Built.framesDistinct {p0 : P} {inp : Model K P} (h : Built p0 inp) : FramesDistinct inp.frames := by
  obtain ⟨m, p, hr, -, rfl⟩ := h
  exact hr.framesDistinct

section
variable [IsStrictOrderedRing K] {inp red : Model K (Joint K)} {L : List ℕ} {qref : List K}

theorem name_eq {P : Type*} {m : Model K P} (h : Inv m) {i : ℕ} (hi : i < m.njoints) (n : String) :
    m.name i = n ↔ m.names[i]? = some n := by
  rw [name_getElem h hi]; simp

theorem Reducible.hyp {p0 : Joint K} (hr : Built p0 inp) (h : Reducible inp L) : RHyp inp L := by
  refine ⟨hr.inv, ⟨p0, hr.base.j0⟩, h.names, h.fixed, fun i e he hm => ?_, fun i e x he hm => ?_, h.mass, h.lock⟩
  · obtain ⟨x, hx⟩ := Option.ne_none_iff_exists'.1 hm
    have := hr.base.mimic i e x he hx
    exact ⟨this.1, this.2.1⟩
  · exact (hr.base.mimic i e x he hm).2.2

theorem Reducible.universe {p0 : Joint K} (hr : Built p0 inp) (h : Reducible inp L) :
    ∀ i, 1 ≤ i → i < inp.njoints → inp.name i ≠ "universe" := by
  intro i h1 hi he
  have h0 : inp.name 0 = "universe" := (name_eq hr.inv hr.inv.lens.pos _).2 hr.base.n0
  have := (h.hyp hr).name_inj hi hr.inv.lens.pos (he.trans h0.symm)
  omega

theorem toSys_jt {m : Model K (Joint K)} {i : ℕ} {e : JEntry (Joint K)} (he : m.joints[i]? = some e) (j0 : Joint K)
    (g : Motion K) : (m.toSys j0 g).jt i = e.desc.payload ∧ (m.toSys j0 g).iq i = e.idx_q ∧ (m.toSys j0 g).iv i = e.idx_v := by
  simp [toSys, he]

theorem exists_entry {m : Model K (Joint K)} (h : Inv m) {i : ℕ} (hi : i < m.njoints) : ∃ e, m.joints[i]? = some e :=
  ⟨_, List.getElem?_eq_getElem (by rw [h.lens.joints]; exact hi)⟩

theorem RInv.welded (H : RHyp inp L) (h : RInv inp L qref inp.njoints red) (j0 : Joint K) (g : Motion K)
    (hv : ∀ i, 1 ≤ i → i < inp.njoints → i ∈ L → (inp.jointM qref i).Valid) :
    Sys.Welded (inp.toSys j0 g) (red.toSys j0 g) L (inp.jointM qref) := by
  refine ⟨toSys_parOk H.inv j0 g, H.lock, h.nj, rfl, fun i h1 hi hL => ?_, fun i h1 hi hL => ?_, fun i h1 hi hL => ?_,
    fun k h1 hk hL => ?_, hv⟩
  · exact (h.kept i h1 hi hL).2.1
  · exact (h.kept i h1 hi hL).2.2
  · obtain ⟨e, o, he, ho, hp, -⟩ := (h.kept i h1 hi hL).1.entry
    rw [(toSys_jt he j0 g).1, (toSys_jt ho j0 g).1, hp]
  · exact (h.iner k hk hL).2.2

theorem RInv.jointM_eq (H : RHyp inp L) (j0 : Joint K) (g : Motion K) : ∀ i, 1 ≤ i → i < (inp.toSys j0 g).n → i ∈ L →
    inp.jointM qref i = ((inp.toSys j0 g).jt i).M (seg (fun k => qref.getD k 0) ((inp.toSys j0 g).iq i)) := by
  intro i h1 hi _
  obtain ⟨e, he⟩ := exists_entry H.inv hi
  obtain ⟨a, b, -⟩ := toSys_jt he j0 g
  rw [a, b]
  simp [jointM, he]

theorem RInv.noMimic (H : RHyp inp L) (h : RInv inp L qref inp.njoints red) (hn : inp.NoMimic) : red.NoMimic := by
  intro k o h1 ho
  have hk : k < red.njoints := by
    rw [← h.inv.lens.joints]; by_contra hc
    rw [List.getElem?_eq_none (by omega)] at ho; cases ho
  rw [h.nj] at hk
  obtain ⟨i, hi, hL, rfl⟩ := exists_rank hk
  have i1 : 1 ≤ i := by
    rcases Nat.eq_zero_or_pos i with rfl | h2
    · exact absurd h1 (by simp [rank, keptBefore])
    · exact h2
  obtain ⟨e, o', he, ho', -, -, -, -, hm, -⟩ := (h.kept i i1 hi hL).1.entry
  rw [ho] at ho'
  obtain rfl := Option.some.inj ho'
  exact hm.2 (hn i e i1 he)

theorem RInv.jointsOk (H : RHyp inp L) (h : RInv inp L qref inp.njoints red) (hj : inp.JointsOk) (hn : inp.NoMimic) :
    red.JointsOk := by
  intro k o h1 ho
  have hm0 := h.noMimic H hn k o h1 ho
  have hk : k < red.njoints := by
    rw [← h.inv.lens.joints]; by_contra hc
    rw [List.getElem?_eq_none (by omega)] at ho; cases ho
  rw [h.nj] at hk
  obtain ⟨i, hi, hL, rfl⟩ := exists_rank hk
  have i1 : 1 ≤ i := by
    rcases Nat.eq_zero_or_pos i with rfl | h2
    · exact absurd h1 (by simp [rank, keptBefore])
    · exact h2
  obtain ⟨e, o', he, ho', hp, -, hv, hvx, hm, -⟩ := (h.kept i i1 hi hL).1.entry
  rw [ho] at ho'
  obtain rfl := Option.some.inj ho'
  obtain ⟨a, b, -⟩ := hj i e i1 he
  refine ⟨by rw [hp, hvx]; exact a, fun _ => by rw [hv, hvx]; exact b (hn i e i1 he), fun x hx => ?_⟩
  rw [hm0] at hx; cases hx

/-- the total mass, universe included -/
theorem RInv.mass (H : RHyp inp L) (h : RInv inp L qref inp.njoints red) :
    ∑ k ∈ range red.njoints, (red.inertia k).mass = ∑ i ∈ range inp.njoints, (inp.inertia i).mass := by
  classical
  have hpos := H.inv.lens.pos
  have h1 : ∑ k ∈ range red.njoints, (red.inertia k).mass
      = ∑ k ∈ range inp.njoints with k ∉ L, (red.inertia (rank L k)).mass := by
    rw [h.nj]
    have : ∀ n, ∑ k ∈ range (rank L n), (red.inertia k).mass = ∑ k ∈ range n with k ∉ L, (red.inertia (rank L k)).mass := by
      intro n
      induction n with
      | zero => simp [rank, keptBefore]
      | succ n ih =>
        rw [range_add_one, filter_insert]
        by_cases hL : n ∈ L
        · rw [if_neg (by simpa using hL), rank_succ_of_mem hL, ih]
        · rw [if_pos hL, rank_succ_of_not_mem hL, sum_range_succ, ih, sum_insert (by simp), add_comm]
    exact this _
  rw [h1]
  have h2 : ∀ k ∈ (range inp.njoints).filter (· ∉ L), (red.inertia (rank L k)).mass
      = ∑ i ∈ range inp.njoints with (inp.att L qref i).1 = k, (inp.inertia i).mass := by
    intro k hk
    rw [mem_filter, mem_range] at hk
    exact (h.iner k hk.1 hk.2).2.1
  rw [sum_congr rfl h2]
  refine sum_fiberwise_of_maps_to (fun i hi => ?_) _
  rw [mem_range] at hi
  have := H.att_lt (qref := qref) hi
  rw [mem_filter, mem_range]
  exact ⟨by omega, this.2⟩

end
end Model

/-! ## unit vectors -/
namespace Sys.Welded
variable {K : Type*} [Field K] {s r : Sys K} {L : List ℕ} {Mref : ℕ → SE3 K}

theorem sameVel_unit (h : Sys.Welded s r L Mref) (hs : s.Packed) (hr : r.Packed) {i k : ℕ} (h1 : 1 ≤ i) (hi : i < s.n)
    (hL : i ∉ L) (hk : k < s.jnv i) : s.SameVel r L (Sys.unit (s.iv i + k)) (Sys.unit (r.iv (rank L i) + k)) := by
  have hn : ∀ j, 1 ≤ j → j < s.n → j ∉ L → r.jnv (rank L j) = s.jnv j ∧ 1 ≤ rank L j ∧ rank L j < r.n := by
    intro j j1 hj hjL
    refine ⟨by unfold Sys.jnv; rw [h.rjt j j1 hj hjL], rank_pos h.lock j1, ?_⟩
    rw [h.n]; exact rank_lt hj hjL
  obtain ⟨n1, n2, n3⟩ := hn i h1 hi hL
  refine ⟨fun j j1 hj hjL l hl => ?_, fun j j1 hj hjL l hl => ?_⟩
  · obtain ⟨m1, m2, m3⟩ := hn j j1 hj hjL
    unfold Sys.unit
    by_cases e : s.iv j + l = s.iv i + k
    · obtain ⟨rfl, rfl⟩ := hs.inj j1 hj h1 hi hl hk e
      rw [if_pos rfl, if_pos rfl]
    · rw [if_neg e, if_neg]
      intro e'
      obtain ⟨a, b⟩ := hr.inj m2 m3 n2 n3 (by omega) (by omega) e'
      exact e (by rw [rank_inj hjL hL a, b])
  · unfold Sys.unit
    rw [if_neg]
    intro e
    obtain ⟨rfl, -⟩ := hs.inj j1 hj h1 hi hl hk e
    exact hL hjL

end Sys.Welded
end Pin
