import Verif.Model.Serialize

/-! # Helper lemmas on saving and loading -/

namespace Pin
open Arch
variable {K : Type}

/-- the reader of the format can parse every number of the archive -/
def Rds (f : Fmt) (l : List (Tok K)) : Prop := ∀ x, Tok.num x ∈ l → f.reads x = true

theorem rds_append {f : Fmt} {a b : List (Tok K)} : Rds f (a ++ b) ↔ Rds f a ∧ Rds f b := by
  simp only [Rds, List.mem_append, or_imp, forall_and]

theorem rds_cons_nat {f : Fmt} {n : ℕ} {b : List (Tok K)} : Rds f (.nat n :: b) ↔ Rds f b := by
  simp [Rds]

theorem rd_bind {α β : Type} (x : Rd K α) (k : α → Rd K β) (s : List (Tok K)) :
    (x >>= k) s = (x s).bind fun p => k p.1 p.2 := by
  rfl

/-- what is saved is loaded back, and nothing else is consumed -/
class LArch (K α : Type) [Arch K α] : Prop where
  law : ∀ (f : Fmt) (x : α) (r : List (Tok K)), Rds f (save x : List (Tok K)) →
    (load f : Rd K α) (save x ++ r) = some (x, r)

theorem bnd {α β : Type} [Arch K α] [LArch K α] {f : Fmt} {x : α} (h : Rds f (save x : List (Tok K)))
    (k : α → Rd K β) (r : List (Tok K)) : ((load f : Rd K α) >>= k) (save x ++ r) = k x r := by
  rw [rd_bind, LArch.law f x r h]; rfl

instance : LArch K ℕ := ⟨fun _ _ _ _ => rfl⟩
instance : LArch K ℤ := ⟨fun _ _ _ _ => rfl⟩
instance : LArch K String := ⟨fun _ _ _ _ => rfl⟩
instance : LArch K Bool := ⟨fun _ _ _ _ => rfl⟩
instance : LArch K (Flt K) := ⟨fun f x r h => by
  have hx : f.reads x = true := h x (by simp [save])
  change (if f.reads x then some (x, r) else none) = _
  rw [if_pos hx]⟩

theorem loadN_flatMap {α : Type} (ld : Rd K α) (sv : α → List (Tok K)) (l : List α)
    (h : ∀ x ∈ l, ∀ r, ld (sv x ++ r) = some (x, r)) (r : List (Tok K)) :
    loadN ld l.length (l.flatMap sv ++ r) = some (l, r) := by
  induction l generalizing r with
  | nil => rfl
  | cons a l ih =>
    rw [List.flatMap_cons, List.append_assoc]
    change (ld >>= fun x => loadN ld l.length >>= fun xs => pure (x :: xs)) _ = _
    rw [rd_bind, h a (by simp)]
    change (loadN ld l.length >>= fun xs => pure (a :: xs)) _ = _
    rw [rd_bind, ih (fun x hx => h x (by simp [hx]))]
    rfl

instance {α : Type} [Arch K α] [LArch K α] : LArch K (List α) := ⟨fun f l r h => by
  change ((load f : Rd K ℕ) >>= fun n => loadN (load f) n) (save l.length ++ (l.flatMap save ++ r)) = _
  refine (bnd (x := l.length) (by simp [Rds, save]) _ _).trans ?_
  refine loadN_flatMap _ _ _ (fun x hx r' => LArch.law f x r' ?_) r
  intro y hy
  refine h y ?_
  change _ ∈ Tok.nat l.length :: l.flatMap save
  exact List.mem_cons_of_mem _ (List.mem_flatMap.2 ⟨x, hx, hy⟩)⟩

instance {α β : Type} [Arch K α] [LArch K α] [Arch K β] [LArch K β] : LArch K (α × β) := ⟨fun f p r h => by
  change Rds f (save p.1 ++ save p.2) at h
  simp only [rds_append] at h
  obtain ⟨h1, h2⟩ := h
  have e : (save p : List (Tok K)) ++ r = save p.1 ++ (save p.2 ++ r) := by
    change (save p.1 ++ save p.2) ++ r = _
    simp only [List.append_assoc]
  rw [e]
  exact (bnd h1 _ _).trans ((bnd h2 _ _).trans rfl)⟩

instance : LArch K (V3 (Flt K)) := ⟨fun f v r h => by
  change Rds f (save v.x ++ save v.y ++ save v.z) at h
  simp only [rds_append] at h
  obtain ⟨⟨h1, h2⟩, h3⟩ := h
  have e : (save v : List (Tok K)) ++ r = save v.x ++ (save v.y ++ (save v.z ++ r)) := by
    change (save v.x ++ save v.y ++ save v.z) ++ r = _
    simp only [List.append_assoc]
  rw [e]
  exact (bnd h1 _ _).trans ((bnd h2 _ _).trans ((bnd h3 _ _).trans rfl))⟩

instance : LArch K (M3 (Flt K)) := ⟨fun f m r h => by
  change Rds f (save m.m00 ++ save m.m10 ++ save m.m20 ++ save m.m01 ++ save m.m11 ++ save m.m21 ++ save m.m02 ++ save m.m12 ++ save m.m22) at h
  simp only [rds_append] at h
  obtain ⟨⟨⟨⟨⟨⟨⟨⟨h1, h2⟩, h3⟩, h4⟩, h5⟩, h6⟩, h7⟩, h8⟩, h9⟩ := h
  have e : (save m : List (Tok K)) ++ r = save m.m00 ++ (save m.m10 ++ (save m.m20 ++ (save m.m01 ++ (save m.m11 ++ (save m.m21 ++ (save m.m02 ++ (save m.m12 ++ (save m.m22 ++ r)))))))) := by
    change (save m.m00 ++ save m.m10 ++ save m.m20 ++ save m.m01 ++ save m.m11 ++ save m.m21 ++ save m.m02 ++ save m.m12 ++ save m.m22) ++ r = _
    simp only [List.append_assoc]
  rw [e]
  exact (bnd h1 _ _).trans ((bnd h2 _ _).trans ((bnd h3 _ _).trans ((bnd h4 _ _).trans ((bnd h5 _ _).trans ((bnd h6 _ _).trans ((bnd h7 _ _).trans ((bnd h8 _ _).trans ((bnd h9 _ _).trans rfl))))))))⟩

instance : LArch K (SE3 (Flt K)) := ⟨fun f M r h => by
  change Rds f (save M.trans ++ save M.rot) at h
  simp only [rds_append] at h
  obtain ⟨h1, h2⟩ := h
  have e : (save M : List (Tok K)) ++ r = save M.trans ++ (save M.rot ++ r) := by
    change (save M.trans ++ save M.rot) ++ r = _
    simp only [List.append_assoc]
  rw [e]
  exact (bnd h1 _ _).trans ((bnd h2 _ _).trans rfl)⟩

instance : LArch K (Sym3 (Flt K)) := ⟨fun f S r h => by
  change Rds f (save S.xx ++ save S.xy ++ save S.yy ++ save S.xz ++ save S.yz ++ save S.zz) at h
  simp only [rds_append] at h
  obtain ⟨⟨⟨⟨⟨h1, h2⟩, h3⟩, h4⟩, h5⟩, h6⟩ := h
  have e : (save S : List (Tok K)) ++ r = save S.xx ++ (save S.xy ++ (save S.yy ++ (save S.xz ++ (save S.yz ++ (save S.zz ++ r))))) := by
    change (save S.xx ++ save S.xy ++ save S.yy ++ save S.xz ++ save S.yz ++ save S.zz) ++ r = _
    simp only [List.append_assoc]
  rw [e]
  exact (bnd h1 _ _).trans ((bnd h2 _ _).trans ((bnd h3 _ _).trans ((bnd h4 _ _).trans ((bnd h5 _ _).trans ((bnd h6 _ _).trans rfl)))))⟩

instance : LArch K (Inertia (Flt K)) := ⟨fun f Y r h => by
  change Rds f (save Y.mass ++ save Y.lever ++ save Y.rotI) at h
  simp only [rds_append] at h
  obtain ⟨⟨h1, h2⟩, h3⟩ := h
  have e : (save Y : List (Tok K)) ++ r = save Y.mass ++ (save Y.lever ++ (save Y.rotI ++ r)) := by
    change (save Y.mass ++ save Y.lever ++ save Y.rotI) ++ r = _
    simp only [List.append_assoc]
  rw [e]
  exact (bnd h1 _ _).trans ((bnd h2 _ _).trans ((bnd h3 _ _).trans rfl))⟩

instance : LArch K (Motion (Flt K)) := ⟨fun f v r h => by
  change Rds f (save v.lin ++ save v.ang) at h
  simp only [rds_append] at h
  obtain ⟨h1, h2⟩ := h
  have e : (save v : List (Tok K)) ++ r = save v.lin ++ (save v.ang ++ r) := by
    change (save v.lin ++ save v.ang) ++ r = _
    simp only [List.append_assoc]
  rw [e]
  exact (bnd h1 _ _).trans ((bnd h2 _ _).trans rfl)⟩

instance : LArch K (Frame (Flt K)) := ⟨fun f g r h => by
  change Rds f (save g.name ++ save g.parentJoint ++ save g.parentFrame ++ save g.placement ++ save g.type ++ save g.inertia) at h
  simp only [rds_append] at h
  obtain ⟨⟨⟨⟨⟨h1, h2⟩, h3⟩, h4⟩, h5⟩, h6⟩ := h
  have e : (save g : List (Tok K)) ++ r = save g.name ++ (save g.parentJoint ++ (save g.parentFrame ++ (save g.placement ++ (save g.type ++ (save g.inertia ++ r))))) := by
    change (save g.name ++ save g.parentJoint ++ save g.parentFrame ++ save g.placement ++ save g.type ++ save g.inertia) ++ r = _
    simp only [List.append_assoc]
  rw [e]
  exact (bnd h1 _ _).trans ((bnd h2 _ _).trans ((bnd h3 _ _).trans ((bnd h4 _ _).trans ((bnd h5 _ _).trans ((bnd h6 _ _).trans rfl)))))⟩

instance : LArch K JIdx := ⟨fun f ix r h => by
  change Rds f (save ix.id ++ save ix.q ++ save ix.v ++ save ix.vx) at h
  simp only [rds_append] at h
  obtain ⟨⟨⟨h1, h2⟩, h3⟩, h4⟩ := h
  have e : (save ix : List (Tok K)) ++ r = save ix.id ++ (save ix.q ++ (save ix.v ++ (save ix.vx ++ r))) := by
    change (save ix.id ++ save ix.q ++ save ix.v ++ save ix.vx) ++ r = _
    simp only [List.append_assoc]
  rw [e]
  exact (bnd h1 _ _).trans ((bnd h2 _ _).trans ((bnd h3 _ _).trans ((bnd h4 _ _).trans rfl)))⟩

instance : LArch K CompTabs := ⟨fun f t r h => by
  change Rds f (save t.nq ++ save t.nv ++ save t.nvx ++ save t.idx_q ++ save t.nqs ++ save t.idx_v ++ save t.nvs ++ save t.idx_vx ++ save t.nvxs ++ save t.njoints) at h
  simp only [rds_append] at h
  obtain ⟨⟨⟨⟨⟨⟨⟨⟨⟨h1, h2⟩, h3⟩, h4⟩, h5⟩, h6⟩, h7⟩, h8⟩, h9⟩, h10⟩ := h
  have e : (save t : List (Tok K)) ++ r = save t.nq ++ (save t.nv ++ (save t.nvx ++ (save t.idx_q ++ (save t.nqs ++ (save t.idx_v ++ (save t.nvs ++ (save t.idx_vx ++ (save t.nvxs ++ (save t.njoints ++ r))))))))) := by
    change (save t.nq ++ save t.nv ++ save t.nvx ++ save t.idx_q ++ save t.nqs ++ save t.idx_v ++ save t.nvs ++ save t.idx_vx ++ save t.nvxs ++ save t.njoints) ++ r = _
    simp only [List.append_assoc]
  rw [e]
  exact (bnd h1 _ _).trans ((bnd h2 _ _).trans ((bnd h3 _ _).trans ((bnd h4 _ _).trans ((bnd h5 _ _).trans ((bnd h6 _ _).trans ((bnd h7 _ _).trans ((bnd h8 _ _).trans ((bnd h9 _ _).trans ((bnd h10 _ _).trans rfl)))))))))⟩

/-! ## maps -/

theorem mapInsert_last {β : Type} (k : String) (v : β) (l : List (String × β)) (h : ∀ e ∈ l, e.1 < k) :
    mapInsert k v l = l ++ [(k, v)] := by
  induction l with
  | nil => rfl
  | cons e l ih =>
    have h1 : e.1 < k := h e (by simp)
    rw [mapInsert, if_neg (not_lt_of_gt h1), if_pos h1, ih fun e he => h e (by simp [he])]
    rfl

theorem foldl_mapInsert {β : Type} (l acc : List (String × β)) (h : (acc ++ l).Pairwise fun a b => a.1 < b.1) :
    l.foldl (fun m e => mapInsert e.1 e.2 m) acc = acc ++ l := by
  induction l generalizing acc with
  | nil => simp
  | cons e l ih =>
    rw [List.foldl_cons, mapInsert_last, ih]
    · simp
    · simpa using h
    · intro a ha
      rw [List.pairwise_append] at h
      exact h.2.2 a ha e (by simp)

theorem bnd_map {β γ : Type} [Arch K β] [LArch K β] {f : Fmt} {l : List (String × β)}
    (h : Rds f (save l : List (Tok K))) (hs : l.Pairwise fun a b => a.1 < b.1)
    (k : List (String × β) → Rd K γ) (r : List (Tok K)) : (loadMap f >>= k) (save l ++ r) = k l r := by
  rw [rd_bind]
  have : (loadMap f : Rd K (List (String × β))) (save l ++ r) = some (l, r) := by
    change ((load f : Rd K (List (String × β))) >>= fun l => pure (l.foldl (fun m e => mapInsert e.1 e.2 m) []))
      (save l ++ r) = _
    refine (bnd h _ _).trans ?_
    rw [foldl_mapInsert l [] (by simpa using hs)]
    rfl
  rw [this]; rfl

/-! ## joints -/

namespace SJoint

/-- a joint that holds no other joint -/
def isLeaf : SJoint K → Bool
  | .composite _ _ _ _ => false
  | .mimic _ _ _ _ _ _ => false
  | _ => true

mutual
/-- nesting depth -/
def depth : SJoint K → ℕ
  | .composite _ _ js _ => depths js + 1
  | .mimic _ jm _ _ _ _ => depth jm + 1
  | _ => 0
/-- nesting depth of the elements -/
def depths : List (SJoint K) → ℕ
  | [] => 0
  | j :: js => max (depth j) (depths js)
end

mutual
/-- mimic joints follow a joint without members, kept with the indexes `0, 0`, and of a smaller id -/
def WF : SJoint K → Prop
  | .composite _ _ js _ => WFs js
  | .mimic ix jm _ _ _ _ => jm.isLeaf = true ∧ jm.idx.q = 0 ∧ jm.idx.v = 0 ∧ jm.idx.id < ix.id
  | _ => True
/-- see `WF` -/
def WFs : List (SJoint K) → Prop
  | [] => True
  | j :: js => WF j ∧ WFs js
end

mutual
/-- the joint with the two sizes stored by mimic joints made indeterminate -/
def forget : SJoint K → SJoint K
  | .composite ix t js ps => .composite ix t (forgets js) ps
  | .mimic ix jm s o _ _ => .mimic ix jm s o none none
  | .plain k ix => .plain k ix
  | .axis k ix a => .axis k ix a
  | .helical ax ix h => .helical ax ix h
  | .helicalUnaligned ix a h => .helicalUnaligned ix a h
  | .universal ix a b => .universal ix a b
/-- see `forget` -/
def forgets : List (SJoint K) → List (SJoint K)
  | [] => []
  | j :: js => forget j :: forgets js
end

mutual
/-- does the joint contain a mimic joint? -/
def hasMimic : SJoint K → Bool
  | .composite _ _ js _ => haveMimic js
  | .mimic _ _ _ _ _ _ => true
  | _ => false
/-- see `hasMimic` -/
def haveMimic : List (SJoint K) → Bool
  | [] => false
  | j :: js => hasMimic j || haveMimic js
end

mutual
theorem forget_eq : ∀ j : SJoint K, j.hasMimic = false → j.forget = j
  | .composite ix t js ps, h => by
    rw [hasMimic] at h
    rw [forget, forgets_eq js h]
  | .mimic _ _ _ _ _ _, h => by simp [hasMimic] at h
  | .plain _ _, _ => by rw [forget]
  | .axis _ _ _, _ => by rw [forget]
  | .helical _ _ _, _ => by rw [forget]
  | .helicalUnaligned _ _ _, _ => by rw [forget]
  | .universal _ _ _, _ => by rw [forget]
theorem forgets_eq : ∀ js : List (SJoint K), haveMimic js = false → forgets js = js
  | [], _ => by rw [forgets]
  | j :: js, h => by
    rw [haveMimic, Bool.or_eq_false_iff] at h
    rw [forgets, forget_eq j h.1, forgets_eq js h.2]
end

theorem forget_leaf {j : SJoint K} (h : j.isLeaf = true) : j.forget = j := by
  cases j <;> first | (exfalso; simp [isLeaf] at h; done) | rw [forget]

mutual
theorem wf_of_noMimic : ∀ j : SJoint K, j.hasMimic = false → j.WF
  | .composite ix t js ps, h => by
    rw [hasMimic] at h
    rw [WF]; exact wfs_of_noMimic js h
  | .mimic _ _ _ _ _ _, h => by simp [hasMimic] at h
  | .plain _ _, _ => by simp [WF]
  | .axis _ _ _, _ => by simp [WF]
  | .helical _ _ _, _ => by simp [WF]
  | .helicalUnaligned _ _ _, _ => by simp [WF]
  | .universal _ _ _, _ => by simp [WF]
theorem wfs_of_noMimic : ∀ js : List (SJoint K), haveMimic js = false → WFs js
  | [], _ => by simp [WFs]
  | j :: js, h => by
    rw [haveMimic, Bool.or_eq_false_iff] at h
    rw [WFs]; exact ⟨wf_of_noMimic j h.1, wfs_of_noMimic js h.2⟩
end

mutual
theorem setOk_of_noMimic : ∀ (j : SJoint K) (i : ℕ), j.hasMimic = false → j.setOk i = true
  | .composite ix t js ps, i, h => by
    rw [hasMimic] at h
    rw [setOk]; exact setOks_of_noMimic js 0 h
  | .mimic _ _ _ _ _ _, _, h => by simp [hasMimic] at h
  | .plain _ _, _, _ => by simp [setOk]
  | .axis _ _ _, _, _ => by simp [setOk]
  | .helical _ _ _, _, _ => by simp [setOk]
  | .helicalUnaligned _ _ _, _, _ => by simp [setOk]
  | .universal _ _ _, _, _ => by simp [setOk]
theorem setOks_of_noMimic : ∀ (js : List (SJoint K)) (i : ℕ), haveMimic js = false → setOks js i = true
  | [], _, _ => by simp [setOks]
  | j :: js, i, h => by
    rw [haveMimic, Bool.or_eq_false_iff] at h
    rw [setOks, setOk_of_noMimic j i h.1, setOks_of_noMimic js (i + 1) h.2]; rfl
end

theorem save_idx_len (ix : JIdx) : (save ix : List (Tok K)).length = 4 := rfl

mutual
theorem depth_le : ∀ j : SJoint K, j.depth ≤ (saveJ j).length
  | .composite ix t js ps => by
    have := depths_le js
    simp only [depth, saveJ, List.length_append, List.length_cons, save_idx_len]; omega
  | .mimic ix jm s o _ _ => by
    have := depth_le jm
    simp only [depth, saveJ, List.length_append, save_idx_len]; omega
  | .plain _ _ => by simp [depth]
  | .axis _ _ _ => by simp [depth]
  | .helical _ _ _ => by simp [depth]
  | .helicalUnaligned _ _ _ => by simp [depth]
  | .universal _ _ _ => by simp [depth]
theorem depths_le : ∀ js : List (SJoint K), depths js ≤ (saveJs js).length
  | [] => by simp [depths]
  | j :: js => by
    have h1 := depth_le j
    have h2 := depths_le js
    simp only [depths, saveJs, List.length_append]; omega
end

theorem loadJs_saveJs (ld : SJoint K → Rd K (SJoint K)) (cs js : List (SJoint K)) (r : List (Tok K))
    (h : List.Forall₂ (fun c j => ∀ r, ld c (saveJ j ++ r) = some (forget j, r)) cs js) :
    loadJs ld cs (saveJs js ++ r) = some (forgets js, r) := by
  induction h generalizing r with
  | nil => rfl
  | @cons c j cs js h1 _ ih =>
    rw [saveJs, List.append_assoc]
    change (ld c >>= fun j => loadJs ld cs >>= fun js => pure (j :: js)) _ = _
    rw [rd_bind, h1]
    change (loadJs ld cs >>= fun js => pure (forget j :: js)) _ = _
    rw [rd_bind, ih, forgets]
    rfl

theorem depth_of_mem {j : SJoint K} {js : List (SJoint K)} (h : j ∈ js) : j.depth ≤ depths js := by
  induction js with
  | nil => simp at h
  | cons a l ih =>
    rw [depths]
    rcases List.mem_cons.1 h with rfl | h
    · exact le_max_left _ _
    · exact (ih h).trans (le_max_right _ _)

theorem wf_of_mem {j : SJoint K} {js : List (SJoint K)} (hw : WFs js) (h : j ∈ js) : j.WF := by
  induction js with
  | nil => simp at h
  | cons a l ih =>
    rw [WFs] at hw
    rcases List.mem_cons.1 h with rfl | h
    · exact hw.1
    · exact ih hw.2 h

theorem rds_of_mem {f : Fmt} {j : SJoint K} {js : List (SJoint K)} (hw : Rds f (saveJs js)) (h : j ∈ js) :
    Rds f (saveJ j) := by
  induction js with
  | nil => simp at h
  | cons a l ih =>
    rw [saveJs, rds_append] at hw
    rcases List.mem_cons.1 h with rfl | h
    · exact hw.1
    · exact ih hw.2 h

theorem forall₂_replicate {R : SJoint K → SJoint K → Prop} (c : SJoint K) (js : List (SJoint K))
    (h : ∀ j ∈ js, R c j) : List.Forall₂ R (List.replicate js.length c) js := by
  induction js with
  | nil => exact .nil
  | cons a l ih => exact .cons (h a (by simp)) (ih fun j hj => h j (by simp [hj]))

theorem idx_zero {ix : JIdx} (hq : ix.q = 0) (hv : ix.v = 0) : (⟨ix.id, 0, 0, ix.vx⟩ : JIdx) = ix := by
  obtain ⟨a, b, c, d⟩ := ix
  simp only at hq hv
  rw [hq, hv]

theorem setIndexes_self {j : SJoint K} (h : j.isLeaf = true) (hq : j.idx.q = 0) (hv : j.idx.v = 0) :
    j.setIndexes ⟨j.idx.id, 0, 0, j.idx.vx⟩ = some j := by
  rw [idx_zero hq hv]
  cases j <;> first | (exfalso; simp [isLeaf] at h; done) | simp [setIndexes, setOk, idx]

theorem leaf_noMimic {j : SJoint K} (h : j.isLeaf = true) : j.hasMimic = false := by
  cases j <;> first | (exfalso; simp [isLeaf] at h; done) | simp [hasMimic]

theorem wf_leaf {j : SJoint K} (h : j.isLeaf = true) : j.WF := wf_of_noMimic j (leaf_noMimic h)

theorem default_ok (i : ℕ) : (default : SJoint K).setOk i = true := by simp [default, setOk]

/-- the first step of `loadJ` -/
theorem loadJ_step {f : Fmt} {n : ℕ} {cur : SJoint K} {ix : JIdx} {w : ℕ} {v r : List (Tok K)}
    (hc : cur.setOk ix.id = true) :
    loadJ f (n + 1) cur (save ix ++ save w ++ v ++ r) = loadHeld (loadJ f n) f w (v ++ r) := by
  rw [List.append_assoc, List.append_assoc]
  rw [loadJ]
  refine (bnd (x := ix) (by simp [Rds, save]) _ _).trans ?_
  rw [if_pos hc]
  exact bnd (x := w) (by simp [Rds, save]) _ _

theorem rds_idx (f : Fmt) (ix : JIdx) : Rds f (save ix : List (Tok K)) := by simp [Rds, save]

theorem loadJ_saveJ (f : Fmt) : ∀ (n : ℕ) (cur j : SJoint K) (r : List (Tok K)), j.depth < n → j.WF →
    cur.setOk j.idx.id = true → Rds f (saveJ j) → loadJ f n cur (saveJ j ++ r) = some (j.forget, r) := by
  intro n
  induction n with
  | zero => intro cur j r h; omega
  | succ n ih =>
    intro cur j r hd hw hc hr
    cases j with
    | plain k ix =>
      rw [saveJ, loadJ_step (ix := ix) hc, forget]
      cases k <;> exact (bnd (rds_idx f ix) _ _).trans rfl
    | axis k ix a =>
      rw [saveJ] at hr
      simp only [rds_append] at hr
      rw [saveJ, loadJ_step (ix := ix) hc, forget, List.append_assoc]
      cases k <;> exact (bnd (rds_idx f ix) _ _).trans ((bnd hr.2.2 _ _).trans rfl)
    | helical ax ix p =>
      rw [saveJ] at hr
      simp only [rds_append] at hr
      rw [saveJ, loadJ_step (ix := ix) hc, forget, List.append_assoc]
      rcases ax with ⟨_ | _ | _ | m, hm⟩
      · exact (bnd (rds_idx f ix) _ _).trans ((bnd hr.2.2 _ _).trans rfl)
      · exact (bnd (rds_idx f ix) _ _).trans ((bnd hr.2.2 _ _).trans rfl)
      · exact (bnd (rds_idx f ix) _ _).trans ((bnd hr.2.2 _ _).trans rfl)
      · omega
    | helicalUnaligned ix a p =>
      rw [saveJ] at hr
      simp only [rds_append] at hr
      rw [saveJ, loadJ_step (ix := ix) hc, forget, List.append_assoc, List.append_assoc]
      exact (bnd (rds_idx f ix) _ _).trans ((bnd hr.2.1.2 _ _).trans ((bnd hr.2.2 _ _).trans rfl))
    | universal ix a b =>
      rw [saveJ] at hr
      simp only [rds_append] at hr
      rw [saveJ, loadJ_step (ix := ix) hc, forget, List.append_assoc, List.append_assoc]
      exact (bnd (rds_idx f ix) _ _).trans ((bnd hr.2.1.2 _ _).trans ((bnd hr.2.2 _ _).trans rfl))
    | composite ix t js ps =>
      rw [saveJ] at hr
      simp only [rds_append, rds_cons_nat] at hr
      rw [WF] at hw
      rw [depth] at hd
      rw [saveJ, loadJ_step (ix := ix) hc, forget]
      have e : (save ix ++ save t ++ (Tok.nat js.length :: saveJs js) ++ save ps) ++ r =
          save ix ++ (save t ++ (save js.length ++ (saveJs js ++ (save ps ++ r)))) := by
        change (save ix ++ save t ++ ([Tok.nat js.length] ++ saveJs js) ++ save ps) ++ r = _
        simp only [List.append_assoc]
        rfl
      rw [e]
      refine (bnd (rds_idx f ix) _ _).trans ((bnd hr.2.1.1.2 _ _).trans
        ((bnd (x := js.length) (by simp [Rds, save]) _ _).trans ?_))
      rw [rd_bind, loadJs_saveJs]
      · exact (bnd hr.2.2 _ _).trans rfl
      · refine forall₂_replicate _ _ fun j hj r' => ih _ _ _ ?_ (wf_of_mem hw hj) (default_ok _) (rds_of_mem hr.2.1.2 hj)
        have := depth_of_mem hj
        omega
    | mimic ix jm s o a b =>
      rw [saveJ] at hr
      simp only [rds_append] at hr
      rw [WF] at hw
      obtain ⟨hl, hq, hv, hi⟩ := hw
      rw [depth] at hd
      rw [saveJ, loadJ_step (ix := ix) hc, forget]
      have e : (saveJ jm ++ save s ++ save o ++ save ix) ++ r = saveJ jm ++ (save s ++ (save o ++ (save ix ++ r))) := by
        simp only [List.append_assoc]
      rw [e]
      change (loadJ f n default >>= _) _ = _
      rw [rd_bind, ih default jm _ (by omega) (wf_leaf hl) (default_ok _) hr.2.1.1.1, forget_leaf hl]
      refine (bnd hr.2.1.1.2 _ _).trans ((bnd hr.2.1.2 _ _).trans ((bnd hr.2.2 _ _).trans ?_))
      have hm : loadMimicIdx ix jm s o none none = some (.mimic ix jm s o none none) := by
        rw [loadMimicIdx, setIndexes_self hl hq hv]
        change (SJoint.mimic ⟨maxIndex, ix.q, ix.v, -1⟩ jm s o none none).setIndexes ⟨ix.id, 0, 0, ix.vx⟩ = _
        simp [setIndexes, setOk, hi]
      change ((loadMimicIdx ix jm s o none none).map fun j => (j, r)) = _
      rw [hm]; rfl

theorem loadJoint_saveJ (f : Fmt) (cur j : SJoint K) (r : List (Tok K)) (hw : j.WF)
    (hc : cur.setOk j.idx.id = true) (hr : Rds f (saveJ j)) : loadJoint f cur (saveJ j ++ r) = some (j.forget, r) := by
  refine loadJ_saveJ f _ cur j r ?_ hw hc hr
  have := depth_le j
  rw [List.length_append]; omega

end SJoint

namespace SModel

theorem loadModel_saveModel (f : Fmt) (cur m : SModel K) (r : List (Tok K)) (hr : Rds f m.saveModel)
    (hs : m.refs.Pairwise fun a b => a.1 < b.1) (hw : SJoint.WFs m.joints)
    (hc : List.Forall₂ (fun c j => c.setOk (SJoint.idx j).id = true) (resizeJ cur.joints m.joints.length) m.joints) :
    loadModel f cur (m.saveModel ++ r) = some ({ m with joints := SJoint.forgets m.joints }, r) := by
  unfold saveModel at hr
  simp only [rds_append, rds_cons_nat] at hr
  obtain ⟨⟨⟨⟨⟨⟨⟨⟨⟨⟨⟨⟨⟨⟨⟨⟨⟨⟨⟨⟨⟨⟨⟨⟨⟨⟨⟨⟨⟨⟨⟨⟨⟨⟨⟨h1, h2⟩, h3⟩, h4⟩, h5⟩, h6⟩, h7⟩, h8⟩, h9⟩, h10⟩, h11⟩, h12⟩, h13⟩, h14⟩, h15⟩, h16⟩, h17⟩, h18⟩, h19⟩, h20⟩, h21⟩, h22⟩, h23⟩, h24⟩, h25⟩, h26⟩, h27⟩, h28⟩, h29⟩, h30⟩, h31⟩, h32⟩, h33⟩, h34⟩, hj⟩, hf⟩ := hr
  have e : m.saveModel ++ r =
      save m.nq ++ (save m.nqs ++ (save m.idx_qs ++ (save m.nv ++ (save m.nvs ++ (save m.idx_vs ++ (save m.nvx ++ (save m.nvxs ++ (save m.idx_vxs ++ (save m.njoints ++ (save m.nbodies ++ (save m.nframes ++ (save m.parents ++ (save m.children ++ (save m.names ++ (save m.supports ++ (save m.mimicSupports ++ (save m.subtrees ++ (save m.mimicking ++ (save m.mimicked ++ (save m.gravity ++ (save m.name ++ (save m.refs ++ (save m.armature ++ (save m.rotorInertia ++ (save m.rotorGearRatio ++ (save m.friction ++ (save m.damping ++ (save m.effortLimit ++ (save m.velocityLimit ++ (save m.lowerPositionLimit ++ (save m.upperPositionLimit ++ (save m.inertias ++ (save m.jointPlacements ++ (save m.joints.length ++ (SJoint.saveJs m.joints ++ (save m.frames ++ r)))))))))))))))))))))))))))))))))))) := by
    unfold saveModel
    rw [show (Tok.nat m.joints.length :: SJoint.saveJs m.joints)
      = save m.joints.length ++ SJoint.saveJs m.joints from rfl]
    simp only [List.append_assoc]
  rw [e]
  unfold loadModel
  rw [bnd h1]
  rw [bnd h2]
  rw [bnd h3]
  rw [bnd h4]
  rw [bnd h5]
  rw [bnd h6]
  rw [bnd h7]
  rw [bnd h8]
  rw [bnd h9]
  rw [bnd h10]
  rw [bnd h11]
  rw [bnd h12]
  rw [bnd h13]
  rw [bnd h14]
  rw [bnd h15]
  rw [bnd h16]
  rw [bnd h17]
  rw [bnd h18]
  rw [bnd h19]
  rw [bnd h20]
  rw [bnd h21]
  rw [bnd h22]
  rw [bnd_map h23 hs]
  rw [bnd h24]
  rw [bnd h25]
  rw [bnd h26]
  rw [bnd h27]
  rw [bnd h28]
  rw [bnd h29]
  rw [bnd h30]
  rw [bnd h31]
  rw [bnd h32]
  rw [bnd h33]
  rw [bnd h34]
  have hl : loadJoints f cur.joints (save m.joints.length ++ (SJoint.saveJs m.joints ++ (save m.frames ++ r)))
      = some (SJoint.forgets m.joints, save m.frames ++ r) := by
    refine (bnd (x := m.joints.length) (by simp [Rds, save]) _ _).trans ?_
    refine SJoint.loadJs_saveJs _ _ _ _ ?_
    have key : ∀ (cs js : List (SJoint K)), List.Forall₂ (fun c j => c.setOk (SJoint.idx j).id = true) cs js →
        SJoint.WFs js → Rds f (SJoint.saveJs js) →
        List.Forall₂ (fun c j => ∀ r, SJoint.loadJoint f c (SJoint.saveJ j ++ r) = some (SJoint.forget j, r)) cs js := by
      intro cs js h
      induction h with
      | nil => intro _ _; exact .nil
      | cons h1 _ ih =>
        intro hw hr
        rw [SJoint.WFs] at hw
        rw [SJoint.saveJs, rds_append] at hr
        exact .cons (fun r => SJoint.loadJoint_saveJ f _ _ r hw.1 h1 hr.1) (ih hw.2 hr.2)
    exact key _ _ hc hw hj
  rw [rd_bind, hl]
  refine (bnd hf _ _).trans ?_
  rfl

end SModel

/-! ## geometries -/

namespace SGeom

theorem loadGeom_saveGeom (f : Fmt) (cur g : SGeom K) (r : List (Tok K)) (hr : Rds f g.saveGeom) :
    loadGeom f cur (g.saveGeom ++ r) = some ({ g with material := cur.material }, r) := by
  rw [saveGeom, saveBase] at hr
  simp only [rds_append] at hr
  obtain ⟨⟨⟨⟨⟨⟨⟨⟨⟨⟨h1, h2⟩, h3⟩, h4⟩, h5⟩, h6⟩, h7⟩, h8⟩, h9⟩, h10⟩, h11⟩ := hr
  rw [saveGeom, saveBase]
  simp only [List.append_assoc]
  exact (bnd h1 _ _).trans ((bnd h2 _ _).trans ((bnd h3 _ _).trans ((bnd h4 _ _).trans ((bnd h5 _ _).trans
    ((bnd h6 _ _).trans ((bnd h7 _ _).trans ((bnd h8 _ _).trans ((bnd h9 _ _).trans ((bnd h10 _ _).trans
    ((bnd h11 _ _).trans rfl))))))))))

theorem loadItem_saveItem (one zero : Flt K) (f : Fmt) (g : SGeom K) (r : List (Tok K)) (hr : Rds f g.saveItem) :
    loadItem one zero f (g.saveItem ++ r) = some ({ g with material := none }, r) := by
  rw [saveItem, rds_append] at hr
  have hb := hr.1
  rw [saveBase] at hb
  simp only [rds_append] at hb
  obtain ⟨⟨⟨h1, h2⟩, h3⟩, h4⟩ := hb
  rw [saveItem, saveBase]
  simp only [List.append_assoc]
  refine (bnd h1 _ _).trans ((bnd h2 _ _).trans ((bnd h3 _ _).trans ((bnd h4 _ _).trans ?_)))
  exact loadGeom_saveGeom f _ g r hr.2

end SGeom

namespace SGeomModel

theorem loadGM_saveGM (one zero : Flt K) (f : Fmt) (cur g : SGeomModel K) (r : List (Tok K)) (hr : Rds f g.saveGM) :
    loadGM one zero f cur (g.saveGM ++ r)
      = some ({ g with objects := g.objects.map fun o => { o with material := none } }, r) := by
  rw [saveGM] at hr
  simp only [rds_append, rds_cons_nat] at hr
  obtain ⟨⟨⟨⟨⟨h1, h2⟩, h3⟩, h4⟩, h5⟩, h6⟩ := hr
  have e : g.saveGM ++ r = save g.ngeoms ++ (save g.objects.length ++ (g.objects.flatMap SGeom.saveItem ++ (save g.pairs
      ++ (save g.mapRows ++ (save g.mapCols ++ (save g.mapping ++ r)))))) := by
    rw [saveGM, show (Tok.nat g.objects.length :: g.objects.flatMap SGeom.saveItem)
      = save g.objects.length ++ g.objects.flatMap SGeom.saveItem from rfl]
    simp only [List.append_assoc]
  rw [e]
  refine (bnd h1 _ _).trans ((bnd (x := g.objects.length) (by simp [Rds, save]) _ _).trans ?_)
  have key : ∀ (l : List (SGeom K)) (r : List (Tok K)), Rds f (l.flatMap SGeom.saveItem) →
      loadN (SGeom.loadItem one zero f) l.length (l.flatMap SGeom.saveItem ++ r)
        = some (l.map fun o => { o with material := none }, r) := by
    intro l
    induction l with
    | nil => intro _ _; rfl
    | cons a l ih =>
      intro r h
      rw [List.flatMap_cons, rds_append] at h
      rw [List.flatMap_cons, List.append_assoc]
      change (SGeom.loadItem one zero f >>= fun x => loadN (SGeom.loadItem one zero f) l.length >>= fun xs =>
        pure (x :: xs)) _ = _
      rw [rd_bind, SGeom.loadItem_saveItem one zero f a _ h.1]
      change (loadN (SGeom.loadItem one zero f) l.length >>= fun xs => pure (_ :: xs)) _ = _
      rw [rd_bind, ih _ h.2]
      rfl
  rw [rd_bind, key _ _ h2]
  exact (bnd h3 _ _).trans ((bnd h4 _ _).trans ((bnd h5 _ _).trans ((bnd h6 _ _).trans rfl)))

end SGeomModel

end Pin
