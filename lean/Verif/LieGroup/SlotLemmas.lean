import Verif.LieGroup.Defs
import Verif.Model.ReachLemmas

/-! # The segments of the joints tile the configuration and velocity vectors -/

namespace Pin
namespace Lie

/-- consecutive segments from `a` to `b` -/
def Tiles (pos len : Slot → ℕ) : ℕ → List Slot → ℕ → Prop
  | a, [], b => a = b
  | a, s :: l, b => pos s = a ∧ Tiles pos len (a + len s) l b

section
variable {pos len : Slot → ℕ}

theorem Tiles.append {a b c : ℕ} {l l' : List Slot} (h : Tiles pos len a l b) (h' : Tiles pos len b l' c) :
    Tiles pos len a (l ++ l') c := by
  induction l generalizing a with
  | nil => cases h; simpa using h'
  | cons s l ih => exact ⟨h.1, ih h.2⟩

theorem Tiles.le {a b : ℕ} {l : List Slot} (h : Tiles pos len a l b) : a ≤ b := by
  induction l generalizing a with
  | nil => exact le_of_eq h
  | cons s l ih => have := ih h.2; omega

theorem Tiles.mem {a b : ℕ} {l : List Slot} (h : Tiles pos len a l b) {s : Slot} (hs : s ∈ l) :
    a ≤ pos s ∧ pos s + len s ≤ b := by
  induction l generalizing a with
  | nil => cases hs
  | cons t l ih =>
    rcases List.mem_cons.1 hs with rfl | hs
    · have := h.2.le; have := h.1; omega
    · have := ih h.2 hs; omega

/-- every index belongs to exactly one segment -/
theorem Tiles.cover {a b : ℕ} {l : List Slot} (h : Tiles pos len a l b) {k : ℕ} (ha : a ≤ k) (hb : k < b) :
    ∃! i : ℕ, ∃ s, l[i]? = some s ∧ pos s ≤ k ∧ k < pos s + len s := by
  induction l generalizing a with
  | nil => have : a = b := h; omega
  | cons t l ih =>
    obtain ⟨h1, h2⟩ := h
    by_cases hk : k < a + len t
    · refine ⟨0, ⟨t, rfl, by omega, by omega⟩, ?_⟩
      rintro i ⟨s, hs, e1, e2⟩
      cases i with
      | zero => rfl
      | succ i =>
        have := (h2.mem (List.mem_of_getElem? (by simpa using hs))).1
        omega
    · obtain ⟨i, ⟨s, hs, e1, e2⟩, hu⟩ := ih h2 (by omega)
      refine ⟨i + 1, ⟨s, by simpa using hs, e1, e2⟩, ?_⟩
      rintro j ⟨s', hs', e1', e2'⟩
      cases j with
      | zero => simp at hs'; subst hs'; omega
      | succ j => rw [hu j ⟨s', by simpa using hs', e1', e2'⟩]

variable {f : Slot → (ℕ → ℝ) → ℕ → ℝ}

/-- a loop writing every segment from a value read in the same segment -/
theorem fold_write (hf : ∀ s x y, (∀ k, k < len s → x (pos s + k) = y (pos s + k)) →
      ∀ k, k < len s → f s x k = f s y k)
    {a b : ℕ} {l : List Slot} (h : Tiles pos len a l b) (out : ℕ → ℝ) :
    (∀ s ∈ l, ∀ k, k < len s →
      l.foldl (fun o s => writeSeg o (pos s) (len s) (f s o)) out (pos s + k) = f s out k) ∧
    (∀ k, k < a ∨ b ≤ k → l.foldl (fun o s => writeSeg o (pos s) (len s) (f s o)) out k = out k) := by
  induction l generalizing a out with
  | nil => exact ⟨fun s hs => absurd hs (by simp), fun k _ => rfl⟩
  | cons t l ih =>
    obtain ⟨h1, h2⟩ := h
    obtain ⟨e1, e2⟩ := ih h2 (writeSeg out (pos t) (len t) (f t out))
    have hle := h2.le
    constructor
    · intro s hs k hk
      rw [List.foldl_cons]
      rcases List.mem_cons.1 hs with rfl | hs
      · rw [e2 _ (Or.inl (by omega))]
        simp only [writeSeg]
        rw [if_pos (by omega)]; congr 1; omega
      · rw [e1 s hs k hk]
        refine hf s _ _ ?_ k hk
        intro j hj
        have := (h2.mem hs).1
        simp only [writeSeg]
        rw [if_neg (by omega)]
    · intro k hk
      rw [List.foldl_cons, e2 k (by omega)]
      simp only [writeSeg]
      rw [if_neg (by omega)]

end

mutual
theorem tiles_q (j : LJ) (iq iv : ℕ) : Tiles Slot.iq (fun s => s.g.nq) iq (j.slots iq iv) (iq + j.nq) := by
  cases j with
  | simple g => rw [LJ.slots, LJ.nq]; exact ⟨rfl, rfl⟩
  | mimic => rw [LJ.slots, LJ.nq]; exact rfl
  | composite l => rw [LJ.slots, LJ.nq]; exact tiles_qs l iq iv
theorem tiles_qs (l : List LJ) (iq iv : ℕ) :
    Tiles Slot.iq (fun s => s.g.nq) iq (LJ.slotss l iq iv) (iq + LJ.nqs l) := by
  cases l with
  | nil => rw [LJ.slotss, LJ.nqs]; exact rfl
  | cons j l =>
    rw [LJ.slotss, LJ.nqs, ← Nat.add_assoc]
    exact (tiles_q j iq iv).append (tiles_qs l (iq + j.nq) (iv + j.nv))
end

mutual
theorem tiles_v (j : LJ) (iq iv : ℕ) : Tiles Slot.iv (fun s => s.g.nv) iv (j.slots iq iv) (iv + j.nv) := by
  cases j with
  | simple g => rw [LJ.slots, LJ.nv]; exact ⟨rfl, rfl⟩
  | mimic => rw [LJ.slots, LJ.nv]; exact rfl
  | composite l => rw [LJ.slots, LJ.nv]; exact tiles_vs l iq iv
theorem tiles_vs (l : List LJ) (iq iv : ℕ) :
    Tiles Slot.iv (fun s => s.g.nv) iv (LJ.slotss l iq iv) (iv + LJ.nvs l) := by
  cases l with
  | nil => rw [LJ.slotss, LJ.nvs]; exact rfl
  | cons j l =>
    rw [LJ.slotss, LJ.nvs, ← Nat.add_assoc]
    exact (tiles_v j iq iv).append (tiles_vs l (iq + j.nq) (iv + j.nv))
end

theorem tiles_flat_q : ∀ (L : List (JEntry LJ)) (a : ℕ),
    (∀ i e, L[i]? = some e → e.desc.payload = .mimic ∨
      e.idx_q = a + ((L.take i).map fun e => e.desc.payload.nq).sum) →
    Tiles Slot.iq (fun s => s.g.nq) a (L.flatMap fun e => e.desc.payload.slots e.idx_q e.idx_v)
      (a + (L.map fun e => e.desc.payload.nq).sum)
  | [], a, _ => rfl
  | e :: L, a, h => by
    rw [List.flatMap_cons, List.map_cons, List.sum_cons, ← Nat.add_assoc]
    refine Tiles.append ?_ (tiles_flat_q L (a + e.desc.payload.nq) ?_)
    · rcases h 0 e rfl with hm | hm
      · rw [hm, LJ.slots, LJ.nq]; exact rfl
      · have : e.idx_q = a := by simpa using hm
        rw [this]; exact tiles_q _ _ _
    · intro i e' he
      rcases h (i + 1) e' (by simpa using he) with hm | hm
      · exact .inl hm
      · right
        rw [hm, List.take_succ_cons, List.map_cons, List.sum_cons]; omega

theorem tiles_flat_v : ∀ (L : List (JEntry LJ)) (a : ℕ),
    (∀ i e, L[i]? = some e → e.desc.payload = .mimic ∨
      e.idx_v = a + ((L.take i).map fun e => e.desc.payload.nv).sum) →
    Tiles Slot.iv (fun s => s.g.nv) a (L.flatMap fun e => e.desc.payload.slots e.idx_q e.idx_v)
      (a + (L.map fun e => e.desc.payload.nv).sum)
  | [], a, _ => rfl
  | e :: L, a, h => by
    rw [List.flatMap_cons, List.map_cons, List.sum_cons, ← Nat.add_assoc]
    refine Tiles.append ?_ (tiles_flat_v L (a + e.desc.payload.nv) ?_)
    · rcases h 0 e rfl with hm | hm
      · rw [hm, LJ.slots, LJ.nv]; exact rfl
      · have : e.idx_v = a := by simpa using hm
        rw [this]; exact tiles_v _ _ _
    · intro i e' he
      rcases h (i + 1) e' (by simpa using he) with hm | hm
      · exact .inl hm
      · right
        rw [hm, List.take_succ_cons, List.map_cons, List.sum_cons]; omega

/-- the sizes `addJoint` was told are those of the joints, and only mimic joints are stored as such -/
def PayloadOk (m : Model ℝ LJ) : Prop :=
  ∀ e ∈ m.joints.drop 1, e.desc.nq = e.desc.payload.nq ∧ e.desc.nv = e.desc.payload.nv ∧
    (e.desc.payload = .mimic ↔ e.desc.mimic ≠ none)

variable {m : Model ℝ LJ}

theorem nqs_eq (h : Model.Inv m) : m.nqs = m.joints.map fun e => e.desc.nq := by
  apply List.ext_getElem?
  intro i
  rw [List.getElem?_map]
  cases he : m.joints[i]? with
  | none =>
    rw [List.getElem?_eq_none_iff] at he
    have := h.lens.joints; have := h.lens.nqs
    rw [Option.map_none, List.getElem?_eq_none_iff]; omega
  | some e => exact (h.ent i e he).2.2.2.2.1

theorem nvs_eq (h : Model.Inv m) : m.nvs = m.joints.map fun e => e.desc.nv := by
  apply List.ext_getElem?
  intro i
  rw [List.getElem?_map]
  cases he : m.joints[i]? with
  | none =>
    rw [List.getElem?_eq_none_iff] at he
    have := h.lens.joints; have := h.lens.nvs
    rw [Option.map_none, List.getElem?_eq_none_iff]; omega
  | some e => exact (h.ent i e he).2.2.2.2.2.1

theorem sum_map_drop_take (f : JEntry LJ → ℕ) {l : List (JEntry LJ)} (h0 : ∀ e, l[0]? = some e → f e = 0)
    (i : ℕ) : ((l.take (i + 1)).map f).sum = (((l.drop 1).take i).map f).sum := by
  cases l with
  | nil => simp
  | cons e l => simp [h0 e rfl]

theorem joint0 (h : Model.Inv m) : ∀ e, m.joints[0]? = some e → e.desc.nq = 0 ∧ e.desc.nv = 0 := by
  intro e he
  have := h.ent 0 e he
  have h1 := h.q0
  have h2 := h.v0
  simp only [List.getD_eq_getElem?_getD, this.2.2.2.2.1, this.2.2.2.2.2.1, Option.getD_some] at h1 h2
  exact ⟨h1, h2⟩

/-- the segments of the joints tile the configuration vector and the velocity vector -/
theorem slotsOf_tiles (h : Model.Inv m) (hp : PayloadOk m) :
    Tiles Slot.iq (fun s => s.g.nq) 0 (slotsOf m) m.nq ∧ Tiles Slot.iv (fun s => s.g.nv) 0 (slotsOf m) m.nv := by
  have e0 := joint0 h
  have hq : (((m.joints.drop 1)).map fun e => e.desc.payload.nq).sum = m.nq := by
    rw [← h.qsum, nqs_eq h]
    have h1 := sum_map_drop_take (fun e => e.desc.nq) (fun e he => (e0 e he).1) m.joints.length
    rw [List.take_of_length_le (by omega), List.take_of_length_le (by simp)] at h1
    rw [h1]
    congr 1
    exact List.map_congr_left fun e he => (hp e he).1.symm
  have hv : (((m.joints.drop 1)).map fun e => e.desc.payload.nv).sum = m.nv := by
    rw [← h.vsum, nvs_eq h]
    have h1 := sum_map_drop_take (fun e => e.desc.nv) (fun e he => (e0 e he).2) m.joints.length
    rw [List.take_of_length_le (by omega), List.take_of_length_le (by simp)] at h1
    rw [h1]
    congr 1
    exact List.map_congr_left fun e he => (hp e he).2.1.symm
  constructor
  · have := tiles_flat_q (m.joints.drop 1) 0 ?_
    · rw [hq, Nat.zero_add] at this; exact this
    · intro i e he
      have hmem := hp e (List.mem_of_getElem? he)
      by_cases hm : e.desc.payload = .mimic
      · exact .inl hm
      right
      rw [List.getElem?_drop] at he
      have := (h.ent (1 + i) e he).2.2.2.2.2.2.2 (by_contra fun hn => hm (hmem.2.2.2 hn))
      rw [this.1, nqs_eq h, ← List.map_take, Nat.add_comm 1 i,
        sum_map_drop_take (fun e => e.desc.nq) (fun e he => (e0 e he).1), Nat.zero_add]
      congr 1
      exact List.map_congr_left fun e he => (hp e (List.mem_of_mem_take he)).1
  · have := tiles_flat_v (m.joints.drop 1) 0 ?_
    · rw [hv, Nat.zero_add] at this; exact this
    · intro i e he
      have hmem := hp e (List.mem_of_getElem? he)
      by_cases hm : e.desc.payload = .mimic
      · exact .inl hm
      right
      rw [List.getElem?_drop] at he
      have := (h.ent (1 + i) e he).2.2.2.2.2.2.2 (by_contra fun hn => hm (hmem.2.2.2 hn))
      rw [this.2, nvs_eq h, ← List.map_take, Nat.add_comm 1 i,
        sum_map_drop_take (fun e => e.desc.nv) (fun e he => (e0 e he).2), Nat.zero_add]
      congr 1
      exact List.map_congr_left fun e he => (hp e (List.mem_of_mem_take he)).2.1

end Lie
end Pin
