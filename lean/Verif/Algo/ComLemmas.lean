import Verif.Algo.Com
import Verif.Algo.CrbaLemmas
import Verif.Algo.JacobianLemmas
import Verif.Spec.Com
import Mathlib.Algebra.Module.BigOperators

/-! # What `center-of-mass.hxx` computes -/

set_option linter.unusedSectionVars false

namespace Pin
open Finset

/-! ## accumulation towards the root, the universe included -/
section tree
variable {α : Type*} [AddCommMonoid α] {par : ℕ → ℕ} {n : ℕ}

/-- Joints `≥ k` have been pushed: what the others hold. `g` is the accumulated value. -/
def RAcc (par : ℕ → ℕ) (n : ℕ) (T : ℕ → α → α) (F g : ℕ → α) (k : ℕ) (f : ℕ → α) : Prop :=
  ∀ i, i < k → f i = F i + ∑ c ∈ (kids par n i).filter (fun c => k ≤ c), T c (g c)

theorem RAcc.start (T : ℕ → α → α) {F g f : ℕ → α} (h : ∀ i, i < n → f i = F i) : RAcc par n T F g n f := by
  intro i hi
  rw [filter_eq_empty_iff.2, sum_empty, add_zero, h i hi]
  intro c hc
  have := (mem_kids.1 hc).1.2
  omega

/-- the value that is about to be pushed -/
theorem RAcc.val (hp : ParOk par n) {T : ℕ → α → α} {F g f : ℕ → α} {i : ℕ} (h1 : 1 ≤ i) (hn : i < n)
    (h : RAcc par n T F g (i + 1) f) (hg : IsAcc par n T F g) : f i = g i := by
  rw [h i (by omega), hg i h1 hn, filter_true_of_mem]
  intro c hc
  obtain ⟨⟨c1, cn⟩, e⟩ := mem_kids.1 hc
  have := hp.2 c c1 cn; omega

theorem RAcc.step (hp : ParOk par n) {T : ℕ → α → α} {F g f f' : ℕ → α} {c0 : ℕ} (h1 : 1 ≤ c0) (hn : c0 < n)
    (h : RAcc par n T F g (c0 + 1) f) (hg : IsAcc par n T F g)
    (hf : ∀ i, i < c0 → f' i = if i = par c0 then f i + T c0 (f c0) else f i) : RAcc par n T F g c0 f' := by
  have hpc := hp.2 c0 h1 hn
  intro i hi
  rw [hf i hi, h.val hp h1 hn hg]
  by_cases hip : i = par c0
  · rw [if_pos hip, h i (by omega)]
    have : (kids par n i).filter (fun c => c0 ≤ c)
        = insert c0 ((kids par n i).filter (fun c => c0 + 1 ≤ c)) := by
      ext c
      simp only [mem_filter, mem_insert, mem_kids]
      constructor
      · rintro ⟨⟨⟨a, b⟩, e⟩, g⟩
        by_cases hc : c = c0
        · exact Or.inl hc
        · exact Or.inr ⟨⟨⟨a, b⟩, e⟩, by omega⟩
      · rintro (rfl | ⟨⟨⟨a, b⟩, e⟩, g⟩)
        · exact ⟨⟨⟨h1, hn⟩, hip.symm⟩, le_rfl⟩
        · exact ⟨⟨⟨a, b⟩, e⟩, by omega⟩
    rw [this, sum_insert (by simp), add_assoc, add_comm (T c0 (g c0))]
  · rw [if_neg hip, h i (by omega)]
    congr 1
    apply sum_congr _ (fun _ _ => rfl)
    ext c
    simp only [mem_filter, mem_kids]
    constructor
    · rintro ⟨⟨a, e⟩, g⟩; exact ⟨⟨a, e⟩, by omega⟩
    · rintro ⟨⟨a, e⟩, g⟩
      refine ⟨⟨a, e⟩, ?_⟩
      have : c ≠ c0 := by rintro rfl; exact hip e.symm
      omega

theorem RAcc.root {T : ℕ → α → α} {F g f : ℕ → α} (h : RAcc par n T F g 1 f) :
    f 0 = F 0 + ∑ c ∈ kids par n 0, T c (g c) := by
  rw [h 0 (by omega), filter_true_of_mem]
  intro c hc
  exact (mem_kids.1 hc).1.1

theorem subtree_root (hp : ParOk par n) : subtree par n 0 = Ico 1 n := by
  ext j
  rw [mem_subtree, mem_Ico]
  exact ⟨fun h => h.1, fun h => ⟨h, anc_root hp j h.2⟩⟩

/-- values that are transported sums over subtrees are accumulations -/
theorem IsAcc.of_sum (hp : ParOk par n) {T : ℕ → α → α} {F : ℕ → α} (G : ℕ → ℕ → α)
    (hF : ∀ i, 1 ≤ i → i < n → F i = G i i)
    (hT : ∀ c, 1 ≤ c → c < n → T c (∑ b ∈ subtree par n c, G c b) = ∑ b ∈ subtree par n c, G (par c) b) :
    IsAcc par n T F (fun i => ∑ b ∈ subtree par n i, G i b) := by
  intro i h1 hi
  beta_reduce
  rw [sum_subtree hp (G i) h1 hi, hF i h1 hi]
  congr 1
  apply sum_congr rfl
  intro c hc
  obtain ⟨⟨c1, cn⟩, e⟩ := mem_kids.1 hc
  rw [hT c c1 cn, e]

theorem sum_root (hp : ParOk par n) {T : ℕ → α → α} (G : ℕ → ℕ → α)
    (hT : ∀ c, 1 ≤ c → c < n → T c (∑ b ∈ subtree par n c, G c b) = ∑ b ∈ subtree par n c, G (par c) b) :
    ∑ c ∈ kids par n 0, T c (∑ b ∈ subtree par n c, G c b) = ∑ b ∈ Ico 1 n, G 0 b := by
  rw [← sum_kids_zero hp (G 0)]
  apply sum_congr rfl
  intro c hc
  obtain ⟨⟨c1, cn⟩, e⟩ := mem_kids.1 hc
  rw [hT c c1 cn, e]
end tree

variable {K : Type*} [Field K] {s : Sys K}

theorem V3.divS_eq (v : V3 K) (k : K) : v.divS k = k⁻¹ • v := by
  ext <;> simp [V3.divS, div_eq_inv_mul]

/-! ## `centerOfMass` -/

theorem M3.tr_mul_mulVec (A B : M3 K) (u : V3 K) : (A * B).tr.mulVec u = B.tr.mulVec (A.tr.mulVec u) := by
  ext <;> simp <;> ring

theorem SE3.actInvP_mul {A X : SE3 K} (hX : X.Valid) (hA : A.Valid) (p : V3 K) :
    X.actP ((A * X).actInvP p) = A.actInvP p := by
  have e : (A * X).actInvP p = X.rot.tr.mulVec (A.rot.tr.mulVec (p - A.trans) - X.trans) := by
    unfold SE3.actInvP
    rw [SE3.mul_rot, M3.tr_mul_mulVec, SE3.mul_trans]
    congr 1
    have : p - (A.trans + A.rot.mulVec X.trans) = (p - A.trans) - A.rot.mulVec X.trans := by
      ext <;> simp <;> ring
    rw [this]
    have h2 : A.rot.tr.mulVec (A.rot.mulVec X.trans) = X.trans := M3.IsRot.tr_mulVec_mulVec hA _
    rw [← h2]
    rw [h2]
    generalize p - A.trans = u
    have h3 : A.rot.tr.mulVec (u - A.rot.mulVec X.trans) = A.rot.tr.mulVec u - A.rot.tr.mulVec (A.rot.mulVec X.trans) := by
      ext <;> simp <;> ring
    rw [h3, h2]
  rw [e]
  unfold SE3.actP
  rw [M3.IsRot.mulVec_tr_mulVec hX]
  unfold SE3.actInvP
  ext <;> simp

theorem SE3.actInvP_actP {A : SE3 K} (hA : A.Valid) (p : V3 K) : A.actInvP (A.actP p) = p := by
  unfold SE3.actInvP SE3.actP
  have : A.rot.mulVec p + A.trans - A.trans = A.rot.mulVec p := by ext <;> simp
  rw [this, M3.IsRot.tr_mulVec_mulVec hA]

theorem M3.mulVec_sum {ι : Type*} (t : Finset ι) (m : M3 K) (g : ι → V3 K) :
    m.mulVec (∑ i ∈ t, g i) = ∑ i ∈ t, m.mulVec (g i) := by
  classical
  induction t using Finset.induction_on with
  | empty => ext <;> simp
  | insert a t ha ih => rw [sum_insert ha, sum_insert ha, ← ih, M3.mulVec_add]

theorem M3.mulVec_smul' (m : M3 K) (k : K) (g : V3 K) : m.mulVec (k • g) = k • m.mulVec g := by
  ext <;> simp <;> ring

/-- the mass accumulation -/
theorem subMass_acc (hp : ParOk s.par s.n) :
    IsAcc s.par s.n (fun _ x => x) (fun i => if i = 0 then 0 else (s.Y i).mass) s.subMass :=
  IsAcc.of_sum hp (fun _ b => (s.Y b).mass) (fun i h1 _ => if_neg (by omega)) (fun _ _ _ => rfl)

theorem subMass_root (hp : ParOk s.par s.n) : ∑ c ∈ kids s.par s.n 0, s.subMass c = s.subMass 0 := by
  unfold Sys.subMass
  rw [subtree_root hp]
  exact sum_root hp (T := fun _ x => x) (fun _ b => (s.Y b).mass) (fun _ _ _ => rfl)

/-- mass-weighted centre of mass of the subtree of `i`, in the frame of `i` -/
noncomputable def Sys.lcom (s : Sys K) (q : ℕ → K) (i : ℕ) : V3 K :=
  ∑ b ∈ subtree s.par s.n i, (s.Y b).mass • (s.oM q i).actInvP (s.pcom q b)
/-- mass-weighted sum over the subtree of `i` of vectors of the world, in the axes of `i` -/
noncomputable def Sys.lvec (s : Sys K) (q : ℕ → K) (w : ℕ → V3 K) (i : ℕ) : V3 K :=
  ∑ b ∈ subtree s.par s.n i, (s.Y b).mass • (s.oM q i).rot.tr.mulVec (w b)

theorem lcom_T (hp : ParOk s.par s.n) {q : ℕ → K} (hq : s.At q) {c : ℕ} (h1 : 1 ≤ c) (hc : c < s.n) :
    (s.X q c).rot.mulVec (s.lcom q c) + s.subMass c • (s.X q c).trans
      = ∑ b ∈ subtree s.par s.n c, (s.Y b).mass • (s.oM q (s.par c)).actInvP (s.pcom q b) := by
  have hpc := hp.2 c h1 hc
  have hX := s.X_valid hq h1 hc
  have hA := s.oM_valid hp hq (s.par c) (by omega)
  unfold Sys.lcom Sys.subMass
  rw [M3.mulVec_sum, Finset.sum_smul, ← sum_add_distrib]
  apply sum_congr rfl
  intro b _
  rw [← SE3.actInvP_mul hX hA, ← s.oM_step h1 hpc, M3.mulVec_smul', ← smul_add]
  rfl

theorem lcom_acc (hp : ParOk s.par s.n) {q : ℕ → K} (hq : s.At q) :
    IsAcc s.par s.n (fun c x => (s.X q c).rot.mulVec x + s.subMass c • (s.X q c).trans)
      (fun i => if i = 0 then 0 else (s.Y i).mass • (s.Y i).lever) (s.lcom q) :=
  IsAcc.of_sum hp (fun i b => (s.Y b).mass • (s.oM q i).actInvP (s.pcom q b))
    (fun i h1 hi => by
      rw [if_neg (by omega)]
      unfold Sys.pcom
      rw [SE3.actInvP_actP (s.oM_valid hp hq i hi)])
    (fun _ h1 hc => lcom_T hp hq h1 hc)

theorem lcom_root (hp : ParOk s.par s.n) {q : ℕ → K} (hq : s.At q) :
    ∑ c ∈ kids s.par s.n 0, ((s.X q c).rot.mulVec (s.lcom q c) + s.subMass c • (s.X q c).trans)
      = s.msum (s.pcom q) 0 := by
  unfold Sys.msum
  rw [subtree_root hp]
  refine (sum_root hp (T := fun c x => (s.X q c).rot.mulVec x + s.subMass c • (s.X q c).trans)
    (fun i b => (s.Y b).mass • (s.oM q i).actInvP (s.pcom q b)) (fun _ h1 hc => lcom_T hp hq h1 hc)).trans ?_
  apply sum_congr rfl
  intro b _
  rw [s.oM_zero]
  congr 1
  ext <;> simp [SE3.actInvP]

theorem lvec_T (hp : ParOk s.par s.n) {q : ℕ → K} (hq : s.At q) (w : ℕ → V3 K) {c : ℕ} (h1 : 1 ≤ c) (hc : c < s.n) :
    (s.X q c).rot.mulVec (s.lvec q w c)
      = ∑ b ∈ subtree s.par s.n c, (s.Y b).mass • (s.oM q (s.par c)).rot.tr.mulVec (w b) := by
  have hpc := hp.2 c h1 hc
  have hX := s.X_valid hq h1 hc
  unfold Sys.lvec
  rw [M3.mulVec_sum]
  apply sum_congr rfl
  intro b _
  rw [s.oM_step h1 hpc, SE3.mul_rot, M3.tr_mul_mulVec, M3.mulVec_smul', M3.IsRot.mulVec_tr_mulVec hX]

theorem lvec_acc (hp : ParOk s.par s.n) {q : ℕ → K} (hq : s.At q) (w : ℕ → V3 K) :
    IsAcc s.par s.n (fun c x => (s.X q c).rot.mulVec x)
      (fun i => if i = 0 then 0 else (s.Y i).mass • (s.oM q i).rot.tr.mulVec (w i)) (s.lvec q w) :=
  IsAcc.of_sum hp (fun i b => (s.Y b).mass • (s.oM q i).rot.tr.mulVec (w b)) (fun i h1 _ => if_neg (by omega))
    (fun _ h1 hc => lvec_T hp hq w h1 hc)

theorem lvec_root (hp : ParOk s.par s.n) {q : ℕ → K} (hq : s.At q) (w : ℕ → V3 K) :
    ∑ c ∈ kids s.par s.n 0, (s.X q c).rot.mulVec (s.lvec q w c) = s.msum w 0 := by
  unfold Sys.msum
  rw [subtree_root hp]
  refine (sum_root hp (T := fun c x => (s.X q c).rot.mulVec x)
    (fun i b => (s.Y b).mass • (s.oM q i).rot.tr.mulVec (w b)) (fun _ h1 hc => lvec_T hp hq w h1 hc)).trans ?_
  apply sum_congr rfl
  intro b _
  rw [s.oM_zero]
  congr 1
  ext <;> simp

/-- `x[parent] += T(x[i]); if (sub) x[i] /= mass[i];` -/
def pushDiv {α : Type*} [Add α] (p i : ℕ) (t : α) (sub : Bool) (D : α → α) (f : ℕ → α) : ℕ → α :=
  let f := upd f p (f p + t)
  if sub then upd f i (D (f i)) else f

theorem pushDiv_lt {α : Type*} [Add α] {p i j : ℕ} {t : α} {sub : Bool} {D : α → α} {f : ℕ → α} (h : j < i) :
    pushDiv p i t sub D f j = if j = p then f j + t else f j := by
  have : upd f p (f p + t) j = if j = p then f j + t else f j := by
    by_cases e : j = p
    · subst e; rw [upd_self, if_pos rfl]
    · rw [upd_ne _ _ e, if_neg e]
  unfold pushDiv
  cases sub
  · exact this
  · simp only [if_true]
    rw [upd_ne _ _ (by omega)]; exact this

theorem pushDiv_gt {α : Type*} [Add α] {p i j : ℕ} {t : α} {sub : Bool} {D : α → α} {f : ℕ → α} (hp : p < i) (h : i < j) :
    pushDiv p i t sub D f j = f j := by
  unfold pushDiv
  cases sub
  · exact upd_ne _ _ (by omega)
  · simp only [if_true]
    rw [upd_ne _ _ (by omega), upd_ne _ _ (by omega)]

theorem pushDiv_at {α : Type*} [Add α] {p i : ℕ} {t : α} {sub : Bool} {D : α → α} {f : ℕ → α} (hp : p < i) :
    pushDiv p i t sub D f i = if sub then D (f i) else f i := by
  unfold pushDiv
  cases sub
  · exact upd_ne _ _ (by omega)
  · simp only [if_true]
    rw [upd_self, upd_ne _ _ (by omega)]

/-- state of one accumulated vector: pushed for joints `≥ k`, divided if asked -/
structure Col {α : Type*} [AddCommMonoid α] (par : ℕ → ℕ) (n : ℕ) (T : ℕ → α → α) (F g : ℕ → α) (sub : Bool)
    (D : ℕ → α → α) (k : ℕ) (f : ℕ → α) : Prop where
  acc : RAcc par n T F g k f
  fin : ∀ i, k ≤ i → i < n → f i = if sub then D i (g i) else g i

theorem Col.start {α : Type*} [AddCommMonoid α] {par : ℕ → ℕ} {n : ℕ} (T : ℕ → α → α) {F g f : ℕ → α} (sub : Bool)
    (D : ℕ → α → α) (h : ∀ i, i < n → f i = F i) : Col par n T F g sub D n f :=
  ⟨RAcc.start T h, fun i a b => by omega⟩

theorem Col.step {α : Type*} [AddCommMonoid α] {par : ℕ → ℕ} {n : ℕ} (hp : ParOk par n) {T : ℕ → α → α} {F g f : ℕ → α}
    {sub : Bool} {D : ℕ → α → α} {i : ℕ} (h1 : 1 ≤ i) (hi : i < n) (h : Col par n T F g sub D (i + 1) f)
    (hg : IsAcc par n T F g) {t : α} (ht : t = T i (f i)) {D' : α → α} (hD : D' = D i) :
    Col par n T F g sub D i (pushDiv (par i) i t sub D' f) := by
  have hpi := hp.2 i h1 hi
  refine ⟨h.acc.step hp h1 hi hg fun j hj => ?_, fun j hj hjn => ?_⟩
  · rw [pushDiv_lt hj, ht]
  · rcases Nat.lt_or_ge i j with h' | h'
    · rw [pushDiv_gt hpi h']; exact h.fin j h' hjn
    · have : j = i := by omega
      subst this
      rw [pushDiv_at hpi, h.acc.val hp h1 hi hg, hD]

/-! projections of the loop bodies -/
theorem comFwd_mass (lvl : KLevel) (i : ℕ) (d : Data K) : (comFwd s lvl i d).mass = upd d.mass i (s.Y i).mass := by
  cases lvl <;> rfl
theorem comFwd_com (lvl : KLevel) (i : ℕ) (d : Data K) :
    (comFwd s lvl i d).com = upd d.com i ((s.Y i).mass • (s.Y i).lever) := by
  cases lvl <;> rfl
theorem comFwd_vcom (lvl : KLevel) (i : ℕ) (d : Data K) :
    (comFwd s lvl i d).vcom = if lvl.vel then
      upd d.vcom i ((s.Y i).mass • ((d.v i).ang.cross (s.Y i).lever + (d.v i).lin)) else d.vcom := by
  cases lvl <;> rfl
theorem comFwd_acom (lvl : KLevel) (i : ℕ) (d : Data K) :
    (comFwd s lvl i d).acom = if lvl.acc then
      upd d.acom i ((s.Y i).mass • ((d.a i).ang.cross (s.Y i).lever + (d.a i).lin)
        + (d.v i).ang.cross ((s.Y i).mass • ((d.v i).ang.cross (s.Y i).lever + (d.v i).lin))) else d.acom := by
  cases lvl
  · rfl
  · rfl
  · simp [comFwd, KLevel.vel, KLevel.acc, upd_self]
theorem comFwd_v (lvl : KLevel) (i : ℕ) (d : Data K) : (comFwd s lvl i d).v = d.v := by cases lvl <;> rfl
theorem comFwd_a (lvl : KLevel) (i : ℕ) (d : Data K) : (comFwd s lvl i d).a = d.a := by cases lvl <;> rfl
theorem comFwd_liMi (lvl : KLevel) (i : ℕ) (d : Data K) : (comFwd s lvl i d).liMi = d.liMi := by cases lvl <;> rfl

theorem comBwd_mass (lvl : KLevel) (sub : Bool) (i : ℕ) (d : Data K) :
    (comBwd s lvl sub i d).mass = pushDiv (s.par i) i (d.mass i) false id d.mass := by
  cases lvl <;> cases sub <;> rfl
theorem comBwd_liMi (lvl : KLevel) (sub : Bool) (i : ℕ) (d : Data K) : (comBwd s lvl sub i d).liMi = d.liMi := by
  cases lvl <;> cases sub <;> simp [comBwd, KLevel.vel, KLevel.acc]
theorem comBwd_com (lvl : KLevel) (sub : Bool) (i : ℕ) (d : Data K) (hp : s.par i ≠ i) :
    (comBwd s lvl sub i d).com = pushDiv (s.par i) i
      ((d.liMi i).rot.mulVec (d.com i) + d.mass i • (d.liMi i).trans) sub (fun x => x.divS (d.mass i)) d.com := by
  have e : upd d.mass (s.par i) (d.mass (s.par i) + d.mass i) i = d.mass i := upd_ne _ _ (Ne.symm hp)
  cases lvl <;> cases sub <;> simp [comBwd, KLevel.vel, KLevel.acc, pushDiv, e]
theorem comBwd_vcom (lvl : KLevel) (sub : Bool) (i : ℕ) (d : Data K) (hp : s.par i ≠ i) :
    (comBwd s lvl sub i d).vcom = if lvl.vel then pushDiv (s.par i) i
      ((d.liMi i).rot.mulVec (d.vcom i)) sub (fun x => x.divS (d.mass i)) d.vcom else d.vcom := by
  have e : upd d.mass (s.par i) (d.mass (s.par i) + d.mass i) i = d.mass i := upd_ne _ _ (Ne.symm hp)
  cases lvl <;> cases sub <;> simp [comBwd, KLevel.vel, KLevel.acc, pushDiv, e]
theorem comBwd_acom (lvl : KLevel) (sub : Bool) (i : ℕ) (d : Data K) (hp : s.par i ≠ i) :
    (comBwd s lvl sub i d).acom = if lvl.acc then pushDiv (s.par i) i
      ((d.liMi i).rot.mulVec (d.acom i)) sub (fun x => x.divS (d.mass i)) d.acom else d.acom := by
  have e : upd d.mass (s.par i) (d.mass (s.par i) + d.mass i) i = d.mass i := upd_ne _ _ (Ne.symm hp)
  cases lvl <;> cases sub <;> simp [comBwd, KLevel.vel, KLevel.acc, pushDiv, e]

/-- state in the backward loop of `centerOfMass` -/
structure ComB (s : Sys K) (q v a : ℕ → K) (lvl : KLevel) (sub : Bool) (k : ℕ) (d : Data K) : Prop where
  liMi : ∀ i, 1 ≤ i → i < s.n → d.liMi i = s.X q i
  mass : Col s.par s.n (fun _ x => x) (fun i => if i = 0 then 0 else (s.Y i).mass) s.subMass false (fun _ => id) k
    d.mass
  com : Col s.par s.n (fun c x => (s.X q c).rot.mulVec x + s.subMass c • (s.X q c).trans)
    (fun i => if i = 0 then 0 else (s.Y i).mass • (s.Y i).lever) (s.lcom q) sub (fun i x => x.divS (s.subMass i)) k
    d.com
  vcom : lvl.vel = true → Col s.par s.n (fun c x => (s.X q c).rot.mulVec x)
    (fun i => if i = 0 then 0 else (s.Y i).mass • (s.oM q i).rot.tr.mulVec (s.wcom q v i)) (s.lvec q (s.wcom q v)) sub
    (fun i x => x.divS (s.subMass i)) k d.vcom
  acom : lvl.acc = true → Col s.par s.n (fun c x => (s.X q c).rot.mulVec x)
    (fun i => if i = 0 then 0 else (s.Y i).mass • (s.oM q i).rot.tr.mulVec (s.ucom q v a i))
    (s.lvec q (s.ucom q v a)) sub (fun i x => x.divS (s.subMass i)) k d.acom

theorem ComB.step (hp : ParOk s.par s.n) {q v a : ℕ → K} (hq : s.At q) {lvl : KLevel} {sub : Bool} {i : ℕ} {d : Data K}
    (h1 : 1 ≤ i) (hi : i < s.n) (h : ComB s q v a lvl sub (i + 1) d) :
    ComB s q v a lvl sub i (comBwd s lvl sub i d) := by
  have hpi := hp.2 i h1 hi
  have hne : s.par i ≠ i := by omega
  have hm : d.mass i = s.subMass i := h.mass.acc.val hp h1 hi (subMass_acc hp)
  refine ⟨fun j a b => ?_, ?_, ?_, fun hl => ?_, fun hl => ?_⟩
  · rw [comBwd_liMi]; exact h.liMi j a b
  · rw [comBwd_mass]; exact h.mass.step hp h1 hi (subMass_acc hp) rfl rfl
  · rw [comBwd_com _ _ _ _ hne]
    exact h.com.step hp h1 hi (lcom_acc hp hq) (by rw [h.liMi i h1 hi, hm]) (by rw [hm])
  · rw [comBwd_vcom _ _ _ _ hne, if_pos hl]
    exact (h.vcom hl).step hp h1 hi (lvec_acc hp hq _) (by rw [h.liMi i h1 hi]) (by rw [hm])
  · rw [comBwd_acom _ _ _ _ hne, if_pos hl]
    exact (h.acom hl).step hp h1 hi (lvec_acc hp hq _) (by rw [h.liMi i h1 hi]) (by rw [hm])

/-- state in the forward loop of `centerOfMass` -/
structure ComF (s : Sys K) (q v a : ℕ → K) (lvl : KLevel) (k : ℕ) (d : Data K) : Prop where
  liMi : ∀ i, 1 ≤ i → i < s.n → d.liMi i = s.X q i
  vel : lvl.vel = true → ∀ i, 1 ≤ i → i < s.n → d.v i = s.V q v i
  acl : lvl.acc = true → ∀ i, 1 ≤ i → i < s.n → d.a i = s.A 0 q v a i
  mass : ∀ i, i < k → d.mass i = if i = 0 then 0 else (s.Y i).mass
  com : ∀ i, i < k → d.com i = if i = 0 then 0 else (s.Y i).mass • (s.Y i).lever
  vcom : lvl.vel = true → ∀ i, i < k →
    d.vcom i = if i = 0 then 0 else (s.Y i).mass • (s.oM q i).rot.tr.mulVec (s.wcom q v i)
  acom : lvl.acc = true → ∀ i, i < k →
    d.acom i = if i = 0 then 0 else (s.Y i).mass • (s.oM q i).rot.tr.mulVec (s.ucom q v a i)

theorem KLevel.vel_of_acc {lvl : KLevel} (h : lvl.acc = true) : lvl.vel = true := by
  cases lvl <;> simp_all [KLevel.vel, KLevel.acc]

theorem upd_lt_succ {α : Type*} {f F : ℕ → α} {k : ℕ} {x : α} (h : ∀ i, i < k → f i = F i) (hx : x = F k) :
    ∀ i, i < k + 1 → upd f k x i = F i := by
  intro i hi
  by_cases e : i = k
  · subst e; rw [upd_self, hx]
  · rw [upd_ne _ _ e]; exact h i (by omega)

theorem ComF.step (hp : ParOk s.par s.n) {q v a : ℕ → K} (hq : s.At q) {lvl : KLevel} {i : ℕ} {d : Data K}
    (h1 : 1 ≤ i) (hi : i < s.n) (h : ComF s q v a lvl i d) : ComF s q v a lvl (i + 1) (comFwd s lvl i d) := by
  have hR := s.oM_valid hp hq i hi
  refine ⟨?_, ?_, ?_, ?_, ?_, fun hl => ?_, fun hl => ?_⟩
  · rw [comFwd_liMi]; exact h.liMi
  · rw [comFwd_v]; exact h.vel
  · rw [comFwd_a]; exact h.acl
  · rw [comFwd_mass]; exact upd_lt_succ h.mass (by rw [if_neg (by omega)])
  · rw [comFwd_com]; exact upd_lt_succ h.com (by rw [if_neg (by omega)])
  · rw [comFwd_vcom, if_pos hl]
    refine upd_lt_succ (h.vcom hl) ?_
    rw [if_neg (by omega), Sys.wcom, M3.IsRot.tr_mulVec_mulVec hR, h.vel hl i h1 hi, add_comm]
  · rw [comFwd_acom, if_pos hl]
    refine upd_lt_succ (h.acom hl) ?_
    rw [if_neg (by omega), Sys.ucom, M3.IsRot.tr_mulVec_mulVec hR, h.vel (KLevel.vel_of_acc hl) i h1 hi,
      h.acl hl i h1 hi]
    ext <;> simp <;> ring

/-- what `centerOfMass` leaves -/
structure ComOut (s : Sys K) (q v a : ℕ → K) (lvl : KLevel) (sub : Bool) (d : Data K) : Prop where
  liMi : ∀ i, 1 ≤ i → i < s.n → d.liMi i = s.X q i
  mass : ∀ i, i < s.n → d.mass i = s.subMass i
  com0 : d.com 0 = (s.subMass 0)⁻¹ • s.msum (s.pcom q) 0
  com : ∀ i, 1 ≤ i → i < s.n → d.com i = if sub then (s.subMass i)⁻¹ • s.lcom q i else s.lcom q i
  vcom0 : lvl.vel = true → d.vcom 0 = (s.subMass 0)⁻¹ • s.msum (s.wcom q v) 0
  vcom : lvl.vel = true → ∀ i, 1 ≤ i → i < s.n →
    d.vcom i = if sub then (s.subMass i)⁻¹ • s.lvec q (s.wcom q v) i else s.lvec q (s.wcom q v) i
  acom0 : lvl.acc = true → d.acom 0 = (s.subMass 0)⁻¹ • s.msum (s.ucom q v a) 0
  acom : lvl.acc = true → ∀ i, 1 ≤ i → i < s.n →
    d.acom i = if sub then (s.subMass i)⁻¹ • s.lvec q (s.ucom q v a) i else s.lvec q (s.ucom q v a) i

/-- the tail of `centerOfMass` -/
def comEnd (lvl : KLevel) (d : Data K) : Data K :=
  let d := { d with com := upd d.com 0 ((d.com 0).divS (d.mass 0)) }
  let d := if lvl.vel then { d with vcom := upd d.vcom 0 ((d.vcom 0).divS (d.mass 0)) } else d
  if lvl.acc then { d with acom := upd d.acom 0 ((d.acom 0).divS (d.mass 0)) } else d
/-- the start of `centerOfMass` -/
def comStart (lvl : KLevel) (d : Data K) : Data K :=
  let d := { d with mass := upd d.mass 0 0, com := upd d.com 0 0 }
  let d := if lvl.vel then { d with vcom := upd d.vcom 0 0 } else d
  if lvl.acc then { d with acom := upd d.acom 0 0 } else d

theorem centerOfMass_out (hp : ParOk s.par s.n) {q v a : ℕ → K} (hq : s.At q) (lvl : KLevel) (sub : Bool) {d : Data K}
    (hl : ∀ i, 1 ≤ i → i < s.n → d.liMi i = s.X q i)
    (hv : lvl.vel = true → ∀ i, 1 ≤ i → i < s.n → d.v i = s.V q v i)
    (ha : lvl.acc = true → ∀ i, 1 ≤ i → i < s.n → d.a i = s.A 0 q v a i) :
    ComOut s q v a lvl sub (centerOfMassD s d lvl sub) := by
  have hn := hp.1
  have e : centerOfMassD s d lvl sub
      = comEnd lvl (bwd (comBwd s lvl sub) s.n (fwd (comFwd s lvl) s.n (comStart lvl d))) := rfl
  rw [e]
  have h0 : ComF s q v a lvl 1 (comStart lvl d) := by
    refine ⟨?_, ?_, ?_, ?_, ?_, ?_, ?_⟩
    · cases lvl <;> exact hl
    · cases lvl <;> exact hv
    · cases lvl <;> exact ha
    · intro i hi
      have : i = 0 := by omega
      subst this
      rw [if_pos rfl]
      cases lvl <;> simp [comStart, comEnd, KLevel.vel, KLevel.acc, upd_self]
    · intro i hi
      have : i = 0 := by omega
      subst this
      rw [if_pos rfl]
      cases lvl <;> simp [comStart, comEnd, KLevel.vel, KLevel.acc, upd_self]
    · intro h i hi
      have : i = 0 := by omega
      subst this
      rw [if_pos rfl]
      cases lvl <;> simp_all [comStart, comEnd, KLevel.vel, KLevel.acc, upd_self]
    · intro h i hi
      have : i = 0 := by omega
      subst this
      rw [if_pos rfl]
      cases lvl <;> simp_all [comStart, comEnd, KLevel.vel, KLevel.acc, upd_self]
  have h1 := fwd_ind (step := comFwd s lvl) (P := fun k (d : Data K) => ComF s q v a lvl k d) hn h0
    (fun i d h1 hi h => h.step hp hq h1 hi)
  have h2 : ComB s q v a lvl sub s.n (fwd (comFwd s lvl) s.n (comStart lvl d)) :=
    ⟨h1.liMi, Col.start _ _ _ h1.mass, Col.start _ _ _ h1.com, fun h => Col.start _ _ _ (h1.vcom h),
      fun h => Col.start _ _ _ (h1.acom h)⟩
  have h3 := bwd_ind (step := comBwd s lvl sub) (P := fun k (d : Data K) => ComB s q v a lvl sub k d) hn h2
    (fun i d h1 hi h => h.step hp hq h1 hi)
  generalize bwd (comBwd s lvl sub) s.n (fwd (comFwd s lvl) s.n (comStart lvl d)) = D at h3
  have m0 : D.mass 0 = s.subMass 0 := by
    rw [h3.mass.acc.root, if_pos rfl, zero_add, subMass_root hp]
  have c0 : D.com 0 = s.msum (s.pcom q) 0 := by
    rw [h3.com.acc.root, if_pos rfl, zero_add, lcom_root hp hq]
  refine ⟨?_, ?_, ?_, ?_, ?_, ?_, ?_, ?_⟩
  · cases lvl <;> exact h3.liMi
  · intro i hi
    have : (comEnd lvl D).mass i = D.mass i := by cases lvl <;> rfl
    rw [this]
    rcases Nat.eq_zero_or_pos i with rfl | hpos
    · exact m0
    · exact h3.mass.fin i hpos hi
  · have : (comEnd lvl D).com 0 = (D.com 0).divS (D.mass 0) := by
      cases lvl <;> simp [comStart, comEnd, KLevel.vel, KLevel.acc, upd_self]
    rw [this, m0, c0, V3.divS_eq]
  · intro i a1 a2
    have : (comEnd lvl D).com i = D.com i := by
      cases lvl <;> exact upd_ne _ _ (by omega)
    rw [this, h3.com.fin i a1 a2, V3.divS_eq]
  · intro h
    have : (comEnd lvl D).vcom 0 = (D.vcom 0).divS (D.mass 0) := by
      cases lvl <;> simp_all [comStart, comEnd, KLevel.vel, KLevel.acc, upd_self]
    rw [this, m0, (h3.vcom h).acc.root, if_pos rfl, zero_add, lvec_root hp hq, V3.divS_eq]
  · intro h i a1 a2
    have : (comEnd lvl D).vcom i = D.vcom i := by
      cases lvl <;> first | exact upd_ne _ _ (by omega) | simp [KLevel.vel, KLevel.acc] at h
    rw [this, (h3.vcom h).fin i a1 a2, V3.divS_eq]
  · intro h
    have : (comEnd lvl D).acom 0 = (D.acom 0).divS (D.mass 0) := by
      cases lvl <;> simp_all [comStart, comEnd, KLevel.vel, KLevel.acc, upd_self]
    rw [this, m0, (h3.acom h).acc.root, if_pos rfl, zero_add, lvec_root hp hq, V3.divS_eq]
  · intro h i a1 a2
    have : (comEnd lvl D).acom i = D.acom i := by
      cases lvl <;> first | exact upd_ne _ _ (by omega) | simp [KLevel.vel, KLevel.acc] at h
    rw [this, (h3.acom h).fin i a1 a2, V3.divS_eq]

end Pin
