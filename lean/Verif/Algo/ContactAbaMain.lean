import Verif.Algo.ContactAbaLemmas
import Verif.Algo.PvMain
import Verif.Spec.ContactAba

/-! # The equations that `contactABA` solves -/

namespace Pin
open Finset
set_option linter.unusedSectionVars false
variable {K : Type*} [Field K] {s : Sys K} {q v tau : ℕ → K} {ms : ℕ → RCM K} {nc : ℕ} {des : ℕ → Motion K} {mu : K}

/-! ## one contact -/

theorem Motion.dot_rows (V : Motion K) (f : Force K) : V.dot f = ∑ r ∈ range 6, V.row r * f.row r := by
  simp [sum_range_succ, Motion.row, Force.row, Motion.dot, V3.dot]; ring

theorem ctInertia_mul (mu : K) (m : RCM K) {M : SE3 K} (hM : M.Valid) (a : Motion K) :
    (ctInertia mu m M).mul a = M.actF (match m.type with
      | .CONTACT_3D => ⟨mu • (M.actInv a).lin, 0⟩
      | .CONTACT_6D => ⟨mu • (M.actInv a).lin, mu • (M.actInv a).ang⟩) := by
  have hR : M.rot.IsRot := hM
  have k1 : M.rot.mulVec (M.rot.tr.mulVec a.ang) = a.ang := hR.mulVec_tr_mulVec a.ang
  have k2 : M.rot.mulVec (M.rot.tr.mulVec (a.lin - M.trans.cross a.ang)) = a.lin - M.trans.cross a.ang :=
    hR.mulVec_tr_mulVec _
  cases hm : m.type with
  | CONTACT_3D =>
    simp only [ctInertia, hm, Inertia.mul, SE3.actF, SE3.actInv, M3.mulVec_smul, k2]
    ext <;> simp [Sym3.mulVec] <;> ring
  | CONTACT_6D =>
    simp only [ctInertia, hm, Inertia.mul, SE3.actF, SE3.actInv, M3.mulVec_smul, k1, k2]
    ext <;> simp [Sym3.mulVec] <;> ring

theorem ctInertia_power (mu : K) (m : RCM K) {M : SE3 K} (hM : M.Valid) (V a : Motion K) :
    V.dot ((ctInertia mu m M).matrix.mulMF a)
      = ∑ r ∈ range m.type.dim, (M.actInv V).row r * (mu * (M.actInv a).row r) := by
  rw [Inertia.matrix_mulMF, ctInertia_mul mu m hM, ← SE3.dot_actInv]
  cases m.type with
  | CONTACT_3D =>
    simp [CType.dim, sum_range_succ, Motion.row, Motion.dot, V3.dot]; ring
  | CONTACT_6D =>
    simp [CType.dim, sum_range_succ, Motion.row, Motion.dot, V3.dot]; ring

theorem ctForce_power (mu : K) (m : RCM K) (c : CtCon K) (h3 : m.type = .CONTACT_3D → c.force.ang = 0) (V : Motion K) :
    V.dot (ctForce mu m c)
      = ∑ r ∈ range m.type.dim, (c.oMc.actInv V).row r * (c.force.row r - mu * c.adr.row r) := by
  unfold ctForce
  cases hm : m.type with
  | CONTACT_3D =>
    dsimp only
    rw [Motion.dot_sub, Motion.dot_smul, ← SE3.dot_actInv, ← SE3.dot_actInv]
    simp [CType.dim, sum_range_succ, Motion.row, Force.row, Motion.dot, V3.dot, h3 hm]; ring
  | CONTACT_6D =>
    dsimp only
    rw [Motion.dot_sub, ← SE3.dot_actInv, ← SE3.dot_actInv]
    simp [CType.dim, sum_range_succ, Motion.row, Force.row, Motion.dot, V3.dot]; ring

/-- what a point acceleration adds to a spatial one -/
def RCM.classic (m : RCM K) (w : Motion K) : Motion K :=
  match m.type with
  | .CONTACT_3D => ⟨w.ang.cross w.lin, 0⟩
  | .CONTACT_6D => 0

/-- the data of a contact after the first loop -/
structure CtConOk (s : Sys K) (q v : ℕ → K) (m : RCM K) (des : Motion K) (c : CtCon K) : Prop where
  oMc : c.oMc = s.oM q m.j1 * m.P1
  vel : c.vel = s.conVel q m v
  adr : c.adr = des - m.P1.actInv (s.A 0 q v (fun _ => 0) m.j1) - m.classic (s.conVel q m v)

theorem conAct (h : s.Packed) (hq : s.At q) {m : RCM K} (hj : m.j1 < s.n) (hP : m.P1.Valid) (a : Motion K) :
    (s.oM q m.j1 * m.P1).actInv ((s.oM q m.j1).act a) = m.P1.actInv a := by
  have hv := s.oM_valid h.par hq _ hj
  rw [SE3.mul_actInv hv hP, SE3.actInv_act hv]

theorem ctConInit_ok (h : s.Packed) (hq : s.At q) {m : RCM K} (h1 : 1 ≤ m.j1) (hj : m.j1 < s.n) (hP : m.P1.Valid)
    {x : CtData K} (hx : CT1 s q v s.n x) (des : Motion K) (c : CtCon K) :
    CtConOk s q v m des (ctConInit m des x c) ∧ (ctConInit m des x c).force = c.force := by
  have e1 : (s.oM q m.j1 * m.P1).actInv (s.oV q v m.j1) = s.conVel q m v := conAct h hq hj hP _
  have e2 : (s.oM q m.j1 * m.P1).actInv ((s.oM q m.j1).act (s.A 0 q v (fun _ => 0) m.j1))
      = m.P1.actInv (s.A 0 q v (fun _ => 0) m.j1) := conAct h hq hj hP _
  unfold ctConInit
  cases hm : m.type with
  | CONTACT_3D =>
    simp only [hx.oM _ h1 hj, hx.vel _ h1 hj, hx.dr _ h1 hj, e1, e2]
    refine ⟨⟨rfl, rfl, ?_⟩, trivial⟩
    simp only [RCM.classic, hm]
    ext <;> simp
  | CONTACT_6D =>
    simp only [hx.oM _ h1 hj, hx.vel _ h1 hj, hx.dr _ h1 hj, e1, e2]
    refine ⟨⟨rfl, rfl, ?_⟩, trivial⟩
    simp only [RCM.classic, hm]
    rw [sub_zero]

theorem CtConOk.dev {m : RCM K} {des : Motion K} {c : CtCon K} (hc : CtConOk s q v m des c) (x : CtData K) :
    CtConOk s q v m des (ctDev m des x c) ∧ (ctDev m des x c).force = c.force := by
  unfold ctDev
  cases m.type <;> exact ⟨⟨hc.oMc, hc.vel, hc.adr⟩, rfl⟩

theorem CtConOk.upd {m : RCM K} {des : Motion K} {c : CtCon K} (hc : CtConOk s q v m des c) (mu : K) :
    CtConOk s q v m des (ctUpd mu m c) ∧
      (m.type = .CONTACT_3D → c.force.ang = 0 → (ctUpd mu m c).force.ang = 0) := by
  unfold ctUpd
  cases m.type <;> exact ⟨⟨hc.oMc, hc.vel, hc.adr⟩, fun e e' => by first | exact e' | exact absurd e (by decide)⟩

theorem accIn_eq (h : s.Packed) (hq : s.At q) (m : RCM K) (h1 : 1 ≤ m.j1) (hj : m.j1 < s.n) (d : Data K) (v a : ℕ → K) :
    m.accIn (forwardKinematicsA s d q v a) = m.P1.actInv (s.A 0 q v a m.j1) + m.classic (s.conVel q m v) := by
  obtain ⟨-, v1, a1⟩ := fk2_ok h.par d hq v a
  have e1 := a1 _ hj
  have e3 := (v1 _ h1 hj).1
  unfold RCM.accIn RCM.classic Sys.conVel
  cases m.type with
  | CONTACT_6D =>
    dsimp only
    unfold getFrameAcceleration inFrameAt
    rw [e1, add_zero]
  | CONTACT_3D =>
    dsimp only
    unfold getFrameClassicalAcceleration getFrameVelocity getFrameAcceleration inFrameAt
    rw [e1, e3]
    ext <;> simp

theorem ctDev_dev (h : s.Packed) (hq : s.At q) {m : RCM K} (h1 : 1 ≤ m.j1) (hj : m.j1 < s.n) (hP : m.P1.Valid)
    {des : Motion K} {c : CtCon K} (hc : CtConOk s q v m des c) {x : CtData K} {a : ℕ → K}
    (hx : x.aa m.j1 = (s.oM q m.j1).act (s.A 0 q v a m.j1)) (d : Data K) :
    (ctDev m des x c).dev = m.accIn (forwardKinematicsA s d q v a) - des := by
  rw [accIn_eq h hq m h1 hj]
  unfold ctDev
  rw [hc.oMc, hc.vel, hx, conAct h hq hj hP]
  cases hm : m.type with
  | CONTACT_3D =>
    simp only [RCM.classic, hm]
    ext <;> simp <;> ring
  | CONTACT_6D =>
    simp only [RCM.classic, hm]
    rw [add_zero]

/-! ## the loops over the contacts -/

/-- the inertia of joint `i` with the penalties of its contacts -/
def ctI0 (s : Sys K) (q : ℕ → K) (ms : ℕ → RCM K) (nc : ℕ) (mu : K) (i : ℕ) : M6 K :=
  s.oI q i + ∑ k ∈ range nc, if (ms k).j1 = i then (ctInertia mu (ms k) (s.oM q (ms k).j1 * (ms k).P1)).matrix else 0

/-- the forces of the contacts of joint `i` -/
def ctg (mu : K) (ms : ℕ → RCM K) (nc : ℕ) (cd : ℕ → CtCon K) (i : ℕ) : Force K :=
  ∑ k ∈ range nc, if (ms k).j1 = i then ctForce mu (ms k) (cd k) else 0

theorem ctg_congr {cd cd' : ℕ → CtCon K} (e : ∀ k < nc, cd' k = cd k) (i : ℕ) : ctg mu ms nc cd' i = ctg mu ms nc cd i :=
  sum_congr rfl fun k hk => by rw [e k (mem_range.1 hk)]

theorem ctInit_ok (h : s.Packed) (hq : s.At q) (hf : CtFit s ms nc) {x : CtData K} (hx : CT1 s q v s.n x) (cd : ℕ → CtCon K) :
    let z := upTo (ctInit mu ms des) nc (x, cd)
    (∀ k < nc, CtConOk s q v (ms k) (des k) (z.2 k) ∧ (z.2 k).force = (cd k).force) ∧
    z.1.data = { x.data with oYaba := z.1.data.oYaba } ∧
    (∀ i, 1 ≤ i → i < s.n → z.1.data.oYaba i = ctI0 s q ms nc mu i) ∧
    ∀ i, 1 ≤ i → i < s.n → z.1.aug i = ctg mu ms nc z.2 i := by
  intro z
  have key := upTo_ind (step := ctInit mu ms des) (n := nc) (d := (x, cd))
    (P := fun k (z : CtData K × (ℕ → CtCon K)) =>
      ((∀ l < k, CtConOk s q v (ms l) (des l) (z.2 l) ∧ (z.2 l).force = (cd l).force) ∧ ∀ l, k ≤ l → z.2 l = cd l) ∧
      z.1.data = { x.data with oYaba := z.1.data.oYaba } ∧ z.1.drift = x.drift ∧
      (∀ i, 1 ≤ i → i < s.n → z.1.data.oYaba i = ctI0 s q ms k mu i) ∧
      ∀ i, 1 ≤ i → i < s.n → z.1.aug i = ctg mu ms k z.2 i)
    ⟨⟨fun l hl => by omega, fun l _ => rfl⟩, rfl, rfl, fun i h1 hi => by simp [ctI0, hx.Y i h1 hi],
      fun i h1 hi => by simp [ctg, hx.aug i h1 hi]⟩ ?_
  · obtain ⟨⟨c1, -⟩, c2, -, c4, c5⟩ := key
    exact ⟨c1, c2, c4, c5⟩
  · rintro k z hk ⟨⟨c1, c2⟩, c3, c4, c5, c6⟩
    have hz : CT1 s q v s.n { x with data := x.data } := hx
    obtain ⟨hj1, hj⟩ := hf.joint k hk
    have hcon : ctConInit (ms k) (des k) z.1 (z.2 k) = ctConInit (ms k) (des k) x (cd k) := by
      unfold ctConInit
      rw [c3, c4, c2 k le_rfl]
    obtain ⟨o1, o2⟩ := ctConInit_ok h hq hj1 hj (hf.place k hk) hx (des k) (cd k)
    have e2 : (ctInit mu ms des k z).2 = Function.update z.2 k (ctConInit (ms k) (des k) x (cd k)) := by
      rw [← hcon]; rfl
    have e5 : (ctInit mu ms des k z).1.data.oYaba = Function.update z.1.data.oYaba (ms k).j1 (z.1.data.oYaba (ms k).j1
        + (ctInertia mu (ms k) (s.oM q (ms k).j1 * (ms k).P1)).matrix) := by
      rw [← o1.oMc, ← hcon]; rfl
    have e6 : (ctInit mu ms des k z).1.aug = Function.update z.1.aug (ms k).j1
        (ctForce mu (ms k) (ctConInit (ms k) (des k) x (cd k))) := by
      rw [← hcon]; rfl
    refine ⟨⟨fun l hl => ?_, fun l hl => ?_⟩, ?_, c4, fun i h1 hi => ?_, fun i h1 hi => ?_⟩
    · rw [e2]
      by_cases hlk : l = k
      · subst hlk; rw [Function.update_self]; exact ⟨o1, o2⟩
      · rw [Function.update_of_ne hlk]; exact c1 l (by omega)
    · rw [e2, Function.update_of_ne (by omega)]; exact c2 l (by omega)
    · have e : (ctInit mu ms des k z).1.data = { z.1.data with oYaba := (ctInit mu ms des k z).1.data.oYaba } := rfl
      rw [e, c3]
    · rw [e5]
      unfold ctI0
      rw [sum_range_succ, ← add_assoc]
      by_cases hi' : i = (ms k).j1
      · subst hi'
        rw [Function.update_self, if_pos rfl, c5 _ h1 hi]; rfl
      · rw [Function.update_of_ne hi', if_neg (Ne.symm hi'), add_zero, c5 _ h1 hi]; rfl
    · have e7 : ctg mu ms (k + 1) (ctInit mu ms des k z).2 i = ctg mu ms k z.2 i
          + if (ms k).j1 = i then ctForce mu (ms k) (ctConInit (ms k) (des k) x (cd k)) else 0 := by
        unfold ctg
        rw [sum_range_succ, e2, Function.update_self]
        congr 1
        refine sum_congr rfl fun l hl => ?_
        rw [mem_range] at hl
        rw [Function.update_of_ne (by omega)]
      rw [e6, e7]
      by_cases hi' : i = (ms k).j1
      · subst hi'
        rw [Function.update_self, if_pos rfl]
        have : ctg mu ms k z.2 (ms k).j1 = 0 := sum_eq_zero fun l hl => by
          rw [mem_range] at hl
          rw [if_neg]
          intro e
          have := hf.one l (by omega) k hk e
          omega
        rw [this, zero_add]
      · rw [Function.update_of_ne hi', if_neg (Ne.symm hi'), add_zero, c6 _ h1 hi]

theorem ctLoad_ok (hf : CtFit s ms nc) {x : CtData K} (hx : ∀ i, 1 ≤ i → i < s.n → x.aug i = 0) (cd : ℕ → CtCon K) :
    let z := upTo (ctLoad mu ms) nc (x, cd)
    (∀ k < nc, z.2 k = ctUpd mu (ms k) (cd k)) ∧ z.1.data = x.data ∧
    ∀ i, 1 ≤ i → i < s.n → z.1.aug i = ctg mu ms nc z.2 i := by
  intro z
  have key := upTo_ind (step := ctLoad mu ms) (n := nc) (d := (x, cd))
    (P := fun k (z : CtData K × (ℕ → CtCon K)) =>
      ((∀ l < k, z.2 l = ctUpd mu (ms l) (cd l)) ∧ ∀ l, k ≤ l → z.2 l = cd l) ∧ z.1.data = x.data ∧
      ∀ i, 1 ≤ i → i < s.n → z.1.aug i = ctg mu ms k z.2 i)
    ⟨⟨fun l hl => by omega, fun l _ => rfl⟩, rfl, fun i h1 hi => by simp [ctg, hx i h1 hi]⟩ ?_
  · obtain ⟨⟨c1, -⟩, c2, c5⟩ := key
    exact ⟨c1, c2, c5⟩
  · rintro k z hk ⟨⟨c1, c2⟩, c3, c6⟩
    have e2 : (ctLoad mu ms k z).2 = Function.update z.2 k (ctUpd mu (ms k) (cd k)) := by
      rw [← c2 k le_rfl]; rfl
    have e6 : (ctLoad mu ms k z).1.aug = Function.update z.1.aug (ms k).j1
        (ctForce mu (ms k) (ctUpd mu (ms k) (cd k))) := by
      rw [← c2 k le_rfl]; rfl
    refine ⟨⟨fun l hl => ?_, fun l hl => ?_⟩, c3, fun i h1 hi => ?_⟩
    · rw [e2]
      by_cases hlk : l = k
      · subst hlk; rw [Function.update_self]
      · rw [Function.update_of_ne hlk]; exact c1 l (by omega)
    · rw [e2, Function.update_of_ne (by omega)]; exact c2 l (by omega)
    · have e7 : ctg mu ms (k + 1) (ctLoad mu ms k z).2 i = ctg mu ms k z.2 i
          + if (ms k).j1 = i then ctForce mu (ms k) (ctUpd mu (ms k) (cd k)) else 0 := by
        unfold ctg
        rw [sum_range_succ, e2, Function.update_self]
        congr 1
        refine sum_congr rfl fun l hl => ?_
        rw [mem_range] at hl
        rw [Function.update_of_ne (by omega)]
      rw [e6, e7]
      by_cases hi' : i = (ms k).j1
      · subst hi'
        rw [Function.update_self, if_pos rfl]
        have : ctg mu ms k z.2 (ms k).j1 = 0 := sum_eq_zero fun l hl => by
          rw [mem_range] at hl
          rw [if_neg]
          intro e
          have := hf.one l (by omega) k hk e
          omega
        rw [this, zero_add]
      · rw [Function.update_of_ne hi', if_neg (Ne.symm hi'), add_zero, c6 _ h1 hi]

theorem upTo_point {α : Type*} (f : ℕ → α → α) (n : ℕ) (c : ℕ → α) :
    (∀ k < n, upTo (fun k c => upd c k (f k (c k))) n c k = f k (c k)) ∧
    ∀ k, n ≤ k → upTo (fun k c => upd c k (f k (c k))) n c k = c k := by
  induction n with
  | zero => exact ⟨fun k hk => by omega, fun k _ => rfl⟩
  | succ n ih =>
    rw [upTo_succ]
    refine ⟨fun k hk => ?_, fun k hk => ?_⟩
    · by_cases e : k = n
      · subst e; rw [upd_self, ih.2 _ le_rfl]
      · rw [upd_ne _ _ e]; exact ih.1 k (by omega)
    · rw [upd_ne _ _ (by omega)]; exact ih.2 k (by omega)

theorem ctMeasure_le [LinearOrder K] [IsStrictOrderedRing K] (ms : ℕ → RCM K) (nc : ℕ) (cd : ℕ → CtCon K) :
    0 ≤ ctMeasure ms nc cd ∧ ∀ k < nc, ∀ r < (ms k).type.dim, |(cd k).dev.row r| ≤ ctMeasure ms nc cd := by
  have hin : ∀ n (x : ℕ → K), 0 ≤ infNorm n x ∧ ∀ i < n, |x i| ≤ infNorm n x := by
    intro n x
    unfold infNorm
    induction n with
    | zero => exact ⟨le_rfl, fun i hi => by omega⟩
    | succ n ih =>
      rw [upTo_succ]
      refine ⟨ih.1.trans (le_max_left _ _), fun i hi => ?_⟩
      by_cases e : i = n
      · subst e; exact le_max_right _ _
      · exact (ih.2 i (by omega)).trans (le_max_left _ _)
  unfold ctMeasure
  induction nc with
  | zero => exact ⟨le_rfl, fun k hk => by omega⟩
  | succ n ih =>
    rw [upTo_succ]
    refine ⟨ih.1.trans (le_max_left _ _), fun k hk r hr => ?_⟩
    by_cases e : k = n
    · subst e; exact ((hin _ _).2 r hr).trans (le_max_right _ _)
    · exact (ih.2 k (by omega) r hr).trans (le_max_left _ _)

/-! ## the passes over the tree -/

/-- what holds after the first backward pass and ever after -/
structure CtBase (s : Sys K) (q v : ℕ → K) (ms : ℕ → RCM K) (nc : ℕ) (mu : K) (x : CtData K) : Prop where
  J : ∀ i, 1 ≤ i → i < s.n → ∀ l, l < s.jnv i → x.data.J (s.iv i + l) = s.Jc q i l
  a : ∀ i, 1 ≤ i → i < s.n → x.data.oa i = s.obias q v i
  f : ∀ i, 1 ≤ i → i < s.n → x.data.of i = s.ofbg q v i
  fac : ∃ A, IsAcc s.par s.n (artI s (worP s x.data.J q v)) (ctI0 s q ms nc mu) A ∧
    ∀ i, 1 ≤ i → i < s.n → CtFac s x.data.J A i x

/-- the equations of motion in the world frame, with the forces of the contact data -/
structure CtSol (s : Sys K) (q v tau : ℕ → K) (ms : ℕ → RCM K) (nc : ℕ) (mu : K) (x : CtData K) (cd : ℕ → CtCon K) : Prop where
  acc : ∀ i, 1 ≤ i → i < s.n → x.aa i = (s.oM q i).act (s.A 0 q v x.data.ddq i)
  eq : ∀ w, s.dotv w tau = (∑ i ∈ Ico 1 s.n, (s.oV q w i).dot
      ((ctI0 s q ms nc mu i).mulMF ((s.oM q i).act (s.A 0 q v x.data.ddq i)) + (ctg mu ms nc cd i + s.ofbg q v i)))
    + s.dotv w (fun r => s.arm r * x.data.ddq r)

theorem ctI0_dot (w a : Motion K) (i : ℕ) : w.dot ((ctI0 s q ms nc mu i).mulMF a) = w.dot ((s.oI q i).mulMF a)
    + ∑ k ∈ range nc, if (ms k).j1 = i
      then w.dot ((ctInertia mu (ms k) (s.oM q (ms k).j1 * (ms k).P1)).matrix.mulMF a) else 0 := by
  unfold ctI0
  rw [M6.add_mulMF, M6.sum_mulMF, Motion.dot_add, Motion.dot_sum]
  congr 1
  refine sum_congr rfl fun k _ => ?_
  split
  · rfl
  · rw [M6.zero_mulMF, Motion.dot_zero]

theorem ctI0_symm (i : ℕ) : (ctI0 s q ms nc mu i).IsSymm := by
  unfold ctI0
  refine M6.isSymm_add (s.oI_symm q i) ?_
  apply M6.isSymm_sum
  intro k _
  split
  · exact Inertia.matrix_symm _
  · rw [M6.isSymm_iff]; intro u v; simp [M6.zero_mulMF]

section ord
variable [LinearOrder K] [IsStrictOrderedRing K] [HasEps K]

theorem ct_regular (h : s.Packed) (hq : s.At q) (hy : s.Heavy q) (hf : CtFit s ms nc) (hmu : 0 ≤ mu) {J : ℕ → Motion K}
    (hJ : ∀ i, 1 ≤ i → i < s.n → ∀ l, l < s.jnv i → J (s.iv i + l) = s.Jc q i l) {A : ℕ → M6 K}
    (hA : IsAcc s.par s.n (artI s (worP s J q v)) (ctI0 s q ms nc mu) A) :
    ∀ i, 1 ≤ i → i < s.n → InvOk (s.jnv i) (dMat (seg J (s.iv i)) (seg s.arm (s.iv i)) (A i)) := by
  refine art_regular (P := worP s J q v) h hA (fun i _ _ => ctI0_symm i) (fun i A hA => hA)
    (fun i A hA v => rfl) (fun i v f => rfl) (fun i => rfl) ?_
  intro w V V0 hV e r hr'
  by_contra hne
  have hpos := Sys.massForm_pos h hy.body hy.cols hy.arm w ⟨r, hr', hne⟩
  have hVV : ∀ i, i < s.n → V i = s.oV q w i := by
    intro i hi; refine Sys.joint_ind s h.par ?_ ?_ i hi <;> clear hi i
    · rw [V0, s.oV_zero]
    · intro i h1 hi ih
      rw [hV i h1 hi, ih, s.oV_step h.par hq w h1 hi]
      unfold Sys.jvel
      rw [act_comb]
      congr 1
      unfold comb
      apply sum_congr rfl
      intro l hl
      change _ • J (s.iv i + l) = _
      rw [hJ i h1 hi l (mem_range.1 hl)]; rfl
  have hle : s.massForm q w w ≤ (∑ j ∈ Ico 1 s.n, (V j).dot ((ctI0 s q ms nc mu j).mulMF (V j)))
      + s.dotv w (fun r => s.arm r * w r) := by
    unfold Sys.massForm
    gcongr with i hi
    rw [mem_Ico] at hi
    rw [ctI0_dot, hVV i hi.2, s.dot_mul_world h.par hq w w hi.2]
    refine le_add_of_nonneg_right (sum_nonneg fun k hk => ?_)
    split
    · rw [mem_range] at hk
      rw [ctInertia_power mu _ ((s.oM_valid h.par hq _ (hf.joint k hk).2).mul (hf.place k hk))]
      refine sum_nonneg fun r _ => ?_
      rw [mul_left_comm]
      exact mul_nonneg hmu (mul_self_nonneg _)
    · exact le_rfl
  rw [e] at hle
  linarith

/-- the last forward pass -/
theorem ct_last (h : s.Packed) (hq : s.At q) (hy : s.Heavy q) (hf : CtFit s ms nc) (hmu : 0 ≤ mu) {x : CtData K}
    (hx : CtBase s q v ms nc mu x) {A : ℕ → M6 K} {p : ℕ → Force K} {cd : ℕ → CtCon K}
    (hF : ∀ i, 1 ≤ i → i < s.n → CtFac s x.data.J A i x)
    (hA : IsAcc s.par s.n (artT s (worP s x.data.J q v) tau) (fun i => (ctI0 s q ms nc mu i, ctg mu ms nc cd i + x.data.of i))
      (fun i => (A i, p i)))
    (hu : ∀ i, 1 ≤ i → i < s.n → ∀ l < s.jnv i, x.data.u (s.iv i + l)
      = tau (s.iv i + l) - (seg x.data.J (s.iv i) l).dot (p i)) :
    CtBase s q v ms nc mu (fwd (ctFwd2 s) s.n x) ∧ CtSol s q v tau ms nc mu (fwd (ctFwd2 s) s.n x) cd ∧
    ∀ i, 1 ≤ i → i < s.n → (fwd (ctFwd2 s) s.n x).aug i = 0 := by
  obtain ⟨e1, e2, e3⟩ := ctFwd2_ok h x
  set y := fwd (ctFwd2 s) s.n x with hyy
  have hreg := ct_regular h hq hy hf hmu hx.J (artT_fst hA)
  have hcomb : ∀ z : ℕ → K, ∀ i, 1 ≤ i → i < s.n →
      comb (seg x.data.J (s.iv i)) (s.jnv i) (seg z (s.iv i)) = (s.oM q i).act (s.jvel q z i) := by
    intro z i h1 hi
    unfold Sys.jvel
    rw [act_comb]
    unfold comb
    apply sum_congr rfl
    intro l hl
    rw [mem_range] at hl
    change seg z (s.iv i) l • x.data.J (s.iv i + l) = _
    rw [hx.J i h1 hi l hl]; rfl
  -- accelerations, zero at the universe
  set a : ℕ → Motion K := upd y.aa 0 0 with ha
  have ha1 : ∀ i, 1 ≤ i → a i = y.aa i := fun i h1 => upd_ne _ _ (by omega)
  have hap : ∀ i, (if s.par i > 0 then y.aa (s.par i) else 0) = a (s.par i) := by
    intro i
    split
    · rw [ha1 _ (by omega)]
    · have : s.par i = 0 := by omega
      rw [this, ha, upd_self]
  have hacc : ∀ i, i < s.n → a i = (s.oM q i).act (s.A 0 q v y.data.ddq i) := by
    intro i hi; refine Sys.joint_ind s h.par ?_ ?_ i hi <;> clear hi i
    · rw [s.A_zero, SE3.act_zero, ha, upd_self]
    · intro i h1 hi ih
      rw [ha1 i h1, (e3 i h1 hi).1, hap, hx.a i h1 hi, s.oA_step h.par hq 0 v _ h1 hi, ih]
      congr 1
      exact hcomb _ i h1 hi
  have eJ : y.data.J = x.data.J := by rw [e1]
  have eo : y.data.oa = x.data.oa := by rw [e1]
  have ef : y.data.of = x.data.of := by rw [e1]
  have ej : y.data.joints = x.data.joints := by rw [e1]
  have eY : y.data.oYaba = x.data.oYaba := by rw [e1]
  refine ⟨⟨by rw [eJ]; exact hx.J, by rw [eo]; exact hx.a, by rw [ef]; exact hx.f, ?_⟩, ⟨fun i h1 hi => ?_, fun w => ?_⟩, e2⟩
  · refine ⟨A, ?_, fun i h1 hi => ?_⟩
    · rw [eJ]; exact artT_fst hA
    · have := hF i h1 hi
      rw [eJ]
      exact ⟨by rw [ej]; exact this.StU, by rw [ej]; exact this.Dinv, by rw [ej]; exact this.UDinv, by rw [eY]; exact this.Y⟩
  · rw [← ha1 i h1]; exact hacc i hi
  · have := aba_core (P := worP s x.data.J q v) h hA (fun i _ _ => ctI0_symm i) (fun i A hA => hA)
      (fun i A hA v => rfl) (fun i v f => rfl) (fun i f g => rfl)
      (st := { worπ x.data with U := fun i k => (A i).mulMF (seg x.data.J (s.iv i) k) })
      (fun i h1 hi => ⟨rfl, (hF i h1 hi).StU, (hF i h1 hi).Dinv, (hF i h1 hi).UDinv, hu i h1 hi⟩)
      (fun i h1 hi => by
        change InvOk _ (x.data.joints i).StU
        rw [(hF i h1 hi).StU]; exact hreg i h1 hi) (a := a) (x := y.data.ddq) (by
        intro i h1 hi
        obtain ⟨z1, z2⟩ := e3 i h1 hi
        rw [hap, hx.a i h1 hi] at z1 z2
        exact ⟨by rw [ha1 i h1]; exact z1, z2⟩) (w := w) (V := s.oV q w) (s.oV_zero q w) (fun i h1 hi => by
        rw [Sys.oV_step h.par hq w h1 hi, ← hcomb w i h1 hi]; rfl)
    rw [this]
    congr 1
    refine sum_congr rfl fun i hi => ?_
    rw [mem_Ico] at hi
    rw [hacc i hi.2, hx.f i hi.1 hi.2]

/-- the passes of one turn -/
theorem ctPasses_ok (h : s.Packed) (hq : s.At q) (hy : s.Heavy q) (hf : CtFit s ms nc) (hmu : 0 ≤ mu) {x : CtData K}
    {cd : ℕ → CtCon K} (hx : CtBase s q v ms nc mu x) (hg : ∀ i, 1 ≤ i → i < s.n → x.aug i = ctg mu ms nc cd i) :
    CtBase s q v ms nc mu (ctPasses s tau x) ∧ CtSol s q v tau ms nc mu (ctPasses s tau x) cd ∧
    ∀ i, 1 ≤ i → i < s.n → (ctPasses s tau x).aug i = 0 := by
  obtain ⟨A, hA, hF⟩ := hx.fac
  obtain ⟨p, p1, p2, p3⟩ := ctBwdAug_ok (q := q) (v := v) (tau := tau) h rfl hA hF hg hx.a
  unfold ctPasses
  set y := bwd (ctBwdAug s tau) s.n x with hyy
  have eJ : y.data.J = x.data.J := by rw [p3]
  have eo : y.data.oa = x.data.oa := by rw [p3]
  have ef : y.data.of = x.data.of := by rw [p3]
  have ej : y.data.joints = x.data.joints := by rw [p3]
  have eY : y.data.oYaba = x.data.oYaba := by rw [p3]
  have hF' : ∀ i, 1 ≤ i → i < s.n → CtFac s y.data.J A i y := by
    intro i h1 hi
    have := hF i h1 hi
    rw [eJ]
    exact ⟨by rw [ej]; exact this.StU, by rw [ej]; exact this.Dinv, by rw [ej]; exact this.UDinv, by rw [eY]; exact this.Y⟩
  refine ct_last h hq hy hf hmu ⟨by rw [eJ]; exact hx.J, by rw [eo]; exact hx.a, by rw [ef]; exact hx.f, A, by rw [eJ]; exact hA, hF'⟩
    hF' (by rw [eJ, ef]; exact p1) (by rw [eJ]; exact p2)

/-- the state at the start of a turn -/
structure CtInv (s : Sys K) (q v tau : ℕ → K) (ms : ℕ → RCM K) (des : ℕ → Motion K) (nc : ℕ) (mu : K)
    (z : CtData K × (ℕ → CtCon K)) : Prop where
  base : CtBase s q v ms nc mu z.1
  sol : CtSol s q v tau ms nc mu z.1 z.2
  aug : ∀ i, 1 ≤ i → i < s.n → z.1.aug i = 0
  con : ∀ k < nc, CtConOk s q v (ms k) (des k) (z.2 k)
  point : CtPoint ms nc z.2

theorem ctStart_ok (h : s.Packed) (hq : s.At q) (hy : s.Heavy q) (hf : CtFit s ms nc) (x : CtData K) {cd : ℕ → CtCon K}
    (hp : CtPoint ms nc cd) {st : ProxSet K} (hmu : 0 ≤ st.mu) :
    CtInv s q v tau ms des nc st.mu (ctStart s x q v tau ms des nc cd st) ∧
    ∀ k < nc, ((ctStart s x q v tau ms des nc cd st).2 k).force = (cd k).force := by
  have h1 := ct1_ok h hq v x
  obtain ⟨c1, c2, c3, c4⟩ := ctInit_ok (mu := st.mu) (des := des) h hq hf h1 cd
  unfold ctStart
  dsimp only
  set z := upTo (ctInit st.mu ms des) nc (fwd (ctFwd1 s q v) s.n x, cd) with hz
  have eJ : z.1.data.J = (fwd (ctFwd1 s q v) s.n x).data.J := by rw [c2]
  have eo : z.1.data.oa = (fwd (ctFwd1 s q v) s.n x).data.oa := by rw [c2]
  have ef : z.1.data.of = (fwd (ctFwd1 s q v) s.n x).data.of := by rw [c2]
  obtain ⟨G, g1, g2, g3, g4, g5⟩ := ctBwd_ok (q := q) (v := v) (tau := tau) h c3 c4 (by rw [eo]; exact h1.a)
  set y := bwd (ctBwd s tau) s.n z.1 with hyy
  have hF : ∀ i, 1 ≤ i → i < s.n → CtFac s y.data.J (fun i => (G i).1) i y := fun i h1 hi => by
    rw [g3]; exact (g2 i h1 hi).1
  obtain ⟨r1, r2, r3⟩ := ct_last (v := v) (tau := tau) (x := y) (A := fun i => (G i).1) (p := fun i => (G i).2) (cd := z.2) h hq hy hf hmu
    ⟨by rw [g3, eJ]; exact h1.J, by rw [g4, eo]; exact h1.a, by rw [g5, ef]; exact h1.f, _, by rw [g3]; exact artT_fst g1, hF⟩
    hF (by rw [g3, g5]; exact g1) (by rw [g3]; exact fun i h1 hi => (g2 i h1 hi).2)
  refine ⟨⟨r1, r2, r3, fun k hk => (c1 k hk).1, fun k hk e => ?_⟩, fun k hk => (c1 k hk).2⟩
  rw [(c1 k hk).2]; exact hp k hk e

/-- the equations of motion, as a power -/
theorem ctInv_power (h : s.Packed) (hq : s.At q) (hf : CtFit s ms nc) {z : CtData K × (ℕ → CtCon K)}
    (hz : CtInv s q v tau ms des nc mu z) (d d' d'' : Data K) (w : ℕ → K) :
    s.dotv w tau = s.dotv w (rnea s d q v z.1.data.ddq).tau
      + s.conPower q ms nc (fun k e => (z.2 k).force.row e
        + mu * ((((ms k).accIn (forwardKinematicsA s d' q v z.1.data.ddq)).row e - (des k).row e)
          + (getFrameAcceleration (forwardKinematicsA s d'' q v (fun _ => 0)) (ms k).j1 (ms k).P1 .LOCAL).row e)) w := by
  rw [hz.sol.eq w, rnea_power h.wf d hq]
  have hterm : ∀ i ∈ Ico 1 s.n, (s.oV q w i).dot
      ((ctI0 s q ms nc mu i).mulMF ((s.oM q i).act (s.A 0 q v z.1.data.ddq i)) + (ctg mu ms nc z.2 i + s.ofbg q v i))
      = (s.V q w i).dot (s.F (-s.grav) q v z.1.data.ddq i)
        + ∑ k ∈ range nc, if (ms k).j1 = i then (s.oV q w i).dot
          ((ctInertia mu (ms k) (s.oM q (ms k).j1 * (ms k).P1)).matrix.mulMF ((s.oM q i).act (s.A 0 q v z.1.data.ddq i)))
          + (s.oV q w i).dot (ctForce mu (ms k) (z.2 k)) else 0 := by
    intro i hi
    rw [mem_Ico] at hi
    have hv := s.oM_valid h.par hq i hi.2
    have e1 : (s.V q w i).dot (s.F (-s.grav) q v z.1.data.ddq i)
        = (s.oV q w i).dot ((s.oI q i).mulMF ((s.oM q i).act (s.A 0 q v z.1.data.ddq i)) + s.ofbg q v i) := by
      have hF : (s.oM q i).actF (s.F (-s.grav) q v z.1.data.ddq i)
          = (s.oI q i).mulMF ((s.oM q i).act (s.A 0 q v z.1.data.ddq i)) + s.ofbg q v i := by
        have e3 : ∀ a : Motion K, (s.oI q i).mulMF a = (s.oM q i).actF ((s.Y i).mul ((s.oM q i).actInv a)) := by
          intro a
          rw [Sys.oI, Inertia.matrix_mulMF, Inertia.act_mul hv]
        unfold Sys.F Sys.ofbg Sys.oV
        rw [s.A_base h.par _ _ _ _ _ hi.2, s.base_eq h.par hq _ _ hi.2, e3, e3, e3, SE3.actInv_act hv, SE3.actInv_act hv,
          ← Motion.act_crossF hv, SE3.actF_add, Inertia.mul_add, SE3.actF_add, SE3.actInv_neg]
        have : (s.Y i).mul (-((s.oM q i).actInv s.grav)) = -((s.Y i).mul ((s.oM q i).actInv s.grav)) := by
          have := (s.Y i).mul_smul (-1) ((s.oM q i).actInv s.grav)
          simpa using this
        rw [this, show ∀ f : Force K, (s.oM q i).actF (-f) = -(s.oM q i).actF f from fun f => by
          simpa using (s.oM q i).actF_smul (-1) f]
        abel
      rw [← hF]
      unfold Sys.oV
      rw [SE3.dot_act_actF hv]
    rw [e1, Motion.dot_add, Motion.dot_add, Motion.dot_add, ctI0_dot]
    have e2 : (s.oV q w i).dot (ctg mu ms nc z.2 i)
        = ∑ k ∈ range nc, if (ms k).j1 = i then (s.oV q w i).dot (ctForce mu (ms k) (z.2 k)) else 0 := by
      unfold ctg
      rw [Motion.dot_sum]
      refine sum_congr rfl fun k _ => ?_
      split
      · rfl
      · exact Motion.dot_zero _
    have e4 : (∑ k ∈ range nc, if (ms k).j1 = i then (s.oV q w i).dot
          ((ctInertia mu (ms k) (s.oM q (ms k).j1 * (ms k).P1)).matrix.mulMF ((s.oM q i).act (s.A 0 q v z.1.data.ddq i)))
          + (s.oV q w i).dot (ctForce mu (ms k) (z.2 k)) else 0)
        = (∑ k ∈ range nc, if (ms k).j1 = i then (s.oV q w i).dot
          ((ctInertia mu (ms k) (s.oM q (ms k).j1 * (ms k).P1)).matrix.mulMF ((s.oM q i).act (s.A 0 q v z.1.data.ddq i))) else 0)
          + ∑ k ∈ range nc, if (ms k).j1 = i then (s.oV q w i).dot (ctForce mu (ms k) (z.2 k)) else 0 := by
      rw [← sum_add_distrib]
      refine sum_congr rfl fun k _ => ?_
      split
      · rfl
      · rw [add_zero]
    rw [e2, e4]
    ring
  rw [sum_congr rfl hterm, sum_add_distrib, sum_comm (s := Ico 1 s.n)]
  have hcon : s.conPower q ms nc (fun k e => (z.2 k).force.row e
        + mu * ((((ms k).accIn (forwardKinematicsA s d' q v z.1.data.ddq)).row e - (des k).row e)
          + (getFrameAcceleration (forwardKinematicsA s d'' q v (fun _ => 0)) (ms k).j1 (ms k).P1 .LOCAL).row e)) w
      = ∑ k ∈ range nc, ∑ i ∈ Ico 1 s.n, if (ms k).j1 = i then (s.oV q w i).dot
          ((ctInertia mu (ms k) (s.oM q (ms k).j1 * (ms k).P1)).matrix.mulMF ((s.oM q i).act (s.A 0 q v z.1.data.ddq i)))
          + (s.oV q w i).dot (ctForce mu (ms k) (z.2 k)) else 0 := by
    unfold Sys.conPower
    refine sum_congr rfl fun k hk => ?_
    have hk := mem_range.1 hk
    obtain ⟨hj1, hj⟩ := hf.joint k hk
    have hP := hf.place k hk
    have hc := hz.con k hk
    have hv := s.oM_valid h.par hq _ hj
    symm
    rw [sum_eq_single (ms k).j1, if_pos rfl, ctInertia_power mu _ (hv.mul hP), ctForce_power mu _ _ (hz.point k hk), hc.oMc, hc.adr,
      ← sum_add_distrib]
    · refine sum_congr rfl fun e _ => ?_
      have e1 : (s.oM q (ms k).j1 * (ms k).P1).actInv (s.oV q w (ms k).j1) = s.conVel q (ms k) w := conAct h hq hj hP _
      have e5 : getFrameAcceleration (forwardKinematicsA s d'' q v (fun _ => 0)) (ms k).j1 (ms k).P1 .LOCAL
          = (ms k).P1.actInv (s.A 0 q v (fun _ => 0) (ms k).j1) := by
        unfold getFrameAcceleration inFrameAt
        rw [(fk2_ok h.par d'' hq v (fun _ => 0)).2.2 _ hj]
      dsimp only
      rw [e1, conAct h hq hj hP, accIn_eq h hq _ hj1 hj, e5, Motion.row_add, Motion.row_sub, Motion.row_sub]
      ring
    · intro i _ hne
      rw [if_neg (Ne.symm hne)]
    · intro hno
      exact absurd (mem_Ico.2 ⟨hj1, hj⟩) hno
  rw [hcon]
  ring

/-! ## comparison with a solution, and of two runs -/

theorem ctInv_mass (h : s.Packed) (hq : s.At q) (hf : CtFit s ms nc) {z : CtData K × (ℕ → CtCon K)}
    (hz : CtInv s q v tau ms des nc mu z) (d : Data K) (w : ℕ → K) :
    s.dotv w tau = s.massForm q w z.1.data.ddq + s.dotv w (nonLinearEffects s d q v).nle
      + s.conPower q ms nc (fun k r => ctMult s q v ms mu d z.2 k r + mu * ctErr s q v ms des d z.1.data.ddq k r) w := by
  rw [ctInv_power h hq hf hz d d d w, C12_affine h.wf d d hq v]
  congr 1
  refine sum_congr rfl fun k _ => sum_congr rfl fun r _ => ?_
  unfold ctMult ctErr
  dsimp only
  ring

theorem ctErr_sub (h : s.Packed) (hq : s.At q) (hf : CtFit s ms nc) (d : Data K) (a b : ℕ → K) {k : ℕ} (hk : k < nc) (r : ℕ) :
    ctErr s q v ms des d a k r - ctErr s q v ms des d b k r = (s.conVel q (ms k) (fun r => a r + -1 * b r)).row r := by
  have e1 := accIn_affine h hq (ms k) (hf.joint k hk).1 (hf.joint k hk).2 d d v (fun r => a r + -1 * b r) b
  have e2 : (fun r => a r + -1 * b r + b r) = a := by funext r; ring
  rw [e2] at e1
  unfold ctErr
  rw [e1, Motion.row_add]
  ring

theorem conPower_zero (h : s.Packed) (hf : CtFit s ms nc) (f : ℕ → ℕ → K) {w : ℕ → K} (hw : ∀ r < s.nv, w r = 0) :
    s.conPower q ms nc f w = 0 := by
  rw [conPower_coord h (fun k hk => (hf.joint k hk).2) f w]
  exact sum_eq_zero fun r hr => by rw [hw r (mem_range.1 hr), zero_mul]

theorem conVel_zero (h : s.Packed) (hf : CtFit s ms nc) {w : ℕ → K} (hw : ∀ r < s.nv, w r = 0) {k : ℕ} (hk : k < nc)
    {r : ℕ} (hr : r < (ms k).type.dim) : (s.conVel q (ms k) w).row r = 0 := by
  have e := conPower_zero (q := q) h hf (fun k r => (s.conVel q (ms k) w).row r) hw
  unfold Sys.conPower at e
  rw [sum_eq_zero_iff_of_nonneg fun k _ => sum_nonneg fun r _ => mul_self_nonneg _] at e
  have e' := e k (mem_range.2 hk)
  rw [sum_eq_zero_iff_of_nonneg fun r _ => mul_self_nonneg _] at e'
  exact mul_self_eq_zero.1 (e' r (mem_range.2 hr))

/-- one turn brings the multipliers nearer to those of any solution -/
theorem ct_descent (h : s.Packed) (hq : s.At q) (hy : s.Heavy q) (hf : CtFit s ms nc) (hmu : 0 ≤ mu) {z : CtData K × (ℕ → CtCon K)}
    (hz : CtInv s q v tau ms des nc mu z) (d : Data K) {a : ℕ → K} {f : ℕ → ℕ → K}
    (ha : ∀ r < s.nv, (rnea s d q v a).tau r + s.conPower q ms nc f (Sys.unit r) = tau r)
    (hc : ∀ k < nc, ∀ r < (ms k).type.dim, ctErr s q v ms des d a k r = 0) :
    conSum ms nc (fun k r => (ctMult s q v ms mu d z.2 k r + mu * ctErr s q v ms des d z.1.data.ddq k r - f k r) ^ 2)
      + mu ^ 2 * conSum ms nc (fun k r => ctErr s q v ms des d z.1.data.ddq k r ^ 2)
      ≤ conSum ms nc (fun k r => (ctMult s q v ms mu d z.2 k r - f k r) ^ 2) := by
  set w : ℕ → K := fun r => z.1.data.ddq r + -1 * a r with hw
  have e1 := ctInv_mass h hq hf hz d w
  have e2 : s.dotv w tau = s.massForm q w a + s.dotv w (nonLinearEffects s d q v).nle + s.conPower q ms nc f w := by
    rw [← C12_affine h.wf d d hq v a w, conPower_coord h (fun k hk => (hf.joint k hk).2) f w, ← s.dotv_add]
    exact sum_congr rfl fun r hr => by dsimp only; rw [ha r (mem_range.1 hr)]
  have e3 : s.massForm q w w = s.massForm q w z.1.data.ddq - s.massForm q w a := by
    conv_lhs => rw [hw]
    rw [s.massForm_add_right h.par, s.massForm_smul_right h.par]
    ring
  have hpos : 0 ≤ s.massForm q w w := by
    by_cases hne : ∃ r, r < s.nv ∧ w r ≠ 0
    · obtain ⟨r, hr, hne⟩ := hne
      exact (Sys.massForm_pos h hy.body hy.cols hy.arm w ⟨r, hr, hne⟩).le
    · push Not at hne
      rw [s.massForm_symm, s.massForm_congr_right h.wf (b := fun _ => 0) hne, s.massForm_zero_right h.par]
  have herr : ∀ k < nc, ∀ r < (ms k).type.dim, (s.conVel q (ms k) w).row r = ctErr s q v ms des d z.1.data.ddq k r := by
    intro k hk r hr
    rw [← ctErr_sub h hq hf d _ _ hk r, hc k hk r hr, sub_zero]
  have e4 : conSum ms nc (fun k r => (ctMult s q v ms mu d z.2 k r - f k r) ^ 2)
      = conSum ms nc (fun k r => (ctMult s q v ms mu d z.2 k r + mu * ctErr s q v ms des d z.1.data.ddq k r - f k r) ^ 2)
        + mu ^ 2 * conSum ms nc (fun k r => ctErr s q v ms des d z.1.data.ddq k r ^ 2)
        - 2 * mu * (s.conPower q ms nc (fun k r => ctMult s q v ms mu d z.2 k r + mu * ctErr s q v ms des d z.1.data.ddq k r) w
          - s.conPower q ms nc f w) := by
    unfold conSum Sys.conPower
    rw [← sum_sub_distrib, mul_sum, mul_sum, ← sum_add_distrib, ← sum_sub_distrib]
    refine sum_congr rfl fun k hk => ?_
    rw [← sum_sub_distrib, mul_sum, mul_sum, ← sum_add_distrib, ← sum_sub_distrib]
    refine sum_congr rfl fun r hr => ?_
    rw [herr k (mem_range.1 hk) r (mem_range.1 hr)]
    ring
  have e5 : s.conPower q ms nc (fun k r => ctMult s q v ms mu d z.2 k r + mu * ctErr s q v ms des d z.1.data.ddq k r) w
      - s.conPower q ms nc f w = - s.massForm q w w := by
    rw [e3]; linear_combination e2 - e1
  rw [e4, e5]
  have := mul_nonneg hmu hpos
  linarith

/-- the acceleration is a function of the forces in the contact data -/
theorem ct_determined (h : s.Packed) (hq : s.At q) (hy : s.Heavy q) (hf : CtFit s ms nc) (hmu : 0 ≤ mu)
    {z z' : CtData K × (ℕ → CtCon K)} (hz : CtInv s q v tau ms des nc mu z) (hz' : CtInv s q v tau ms des nc mu z')
    (e : ∀ k < nc, (z.2 k).force = (z'.2 k).force) :
    (∀ r < s.nv, z.1.data.ddq r = z'.1.data.ddq r) ∧
    ∀ (d : Data K) (k), k < nc → ∀ r < (ms k).type.dim,
      ctErr s q v ms des d z.1.data.ddq k r = ctErr s q v ms des d z'.1.data.ddq k r := by
  set w : ℕ → K := fun r => z.1.data.ddq r + -1 * z'.1.data.ddq r with hw
  have e1 := ctInv_mass h hq hf hz Data.zero w
  have e2 := ctInv_mass h hq hf hz' Data.zero w
  have e3 : s.massForm q w w = s.massForm q w z.1.data.ddq - s.massForm q w z'.1.data.ddq := by
    conv_lhs => rw [hw]
    rw [s.massForm_add_right h.par, s.massForm_smul_right h.par]
    ring
  have e4 : s.conPower q ms nc (fun k r => ctMult s q v ms mu Data.zero z.2 k r + mu * ctErr s q v ms des Data.zero z.1.data.ddq k r) w
      = s.conPower q ms nc (fun k r => ctMult s q v ms mu Data.zero z'.2 k r + mu * ctErr s q v ms des Data.zero z'.1.data.ddq k r) w
        + mu * conSum ms nc (fun k r => (s.conVel q (ms k) w).row r ^ 2) := by
    unfold conSum Sys.conPower
    rw [mul_sum, ← sum_add_distrib]
    refine sum_congr rfl fun k hk => ?_
    rw [mul_sum, ← sum_add_distrib]
    refine sum_congr rfl fun r hr => ?_
    have e5 := ctErr_sub (v := v) (des := des) h hq hf Data.zero z.1.data.ddq z'.1.data.ddq (mem_range.1 hk) r
    have e6 : ctMult s q v ms mu Data.zero z.2 k r = ctMult s q v ms mu Data.zero z'.2 k r := by
      unfold ctMult; rw [e k (mem_range.1 hk)]
    dsimp only
    rw [e6, hw, ← e5]
    ring
  have hle : s.massForm q w w ≤ 0 := by
    have : 0 ≤ mu * conSum ms nc (fun k r => (s.conVel q (ms k) w).row r ^ 2) :=
      mul_nonneg hmu (sum_nonneg fun k _ => sum_nonneg fun r _ => sq_nonneg _)
    rw [e4] at e1
    linarith
  have hw0 : ∀ r < s.nv, w r = 0 := by
    intro r hr
    by_contra hne
    exact absurd hle (not_le.2 (Sys.massForm_pos h hy.body hy.cols hy.arm w ⟨r, hr, hne⟩))
  refine ⟨fun r hr => ?_, fun d k hk r hr => ?_⟩
  · have := hw0 r hr
    simp only [hw] at this
    linear_combination this
  · have := ctErr_sub (v := v) (des := des) h hq hf d z.1.data.ddq z'.1.data.ddq hk r
    rw [show (s.conVel q (ms k) (fun r => z.1.data.ddq r + -1 * z'.1.data.ddq r)).row r = 0 from conVel_zero h hf hw0 hk hr] at this
    linear_combination this

theorem infNorm_sq_sum (n : ℕ) (x : ℕ → K) : infNorm n x ^ 2 ≤ ∑ i ∈ range n, x i ^ 2 := by
  unfold infNorm
  induction n with
  | zero => simp [upTo]
  | succ n ih =>
    rw [upTo_succ, sum_range_succ]
    rcases max_choice (upTo (fun i r => max r |x i|) n 0) |x n| with e | e
    · rw [e]; exact ih.trans (le_add_of_nonneg_right (sq_nonneg _))
    · rw [e, sq_abs]; exact le_add_of_nonneg_left (sum_nonneg fun i _ => sq_nonneg _)

theorem ctMeasure_sq (ms : ℕ → RCM K) (nc : ℕ) (cd : ℕ → CtCon K) :
    ctMeasure ms nc cd ^ 2 ≤ conSum ms nc (fun k r => (cd k).dev.row r ^ 2) := by
  unfold ctMeasure conSum
  induction nc with
  | zero => simp [upTo]
  | succ n ih =>
    rw [upTo_succ, sum_range_succ]
    rcases max_choice (upTo (fun k r => max r (infNorm (ms k).type.dim (fun e => (cd k).dev.row e))) n 0)
      (infNorm (ms n).type.dim (fun e => (cd n).dev.row e)) with e | e
    · rw [e]; exact ih.trans (le_add_of_nonneg_right (sum_nonneg fun i _ => sq_nonneg _))
    · rw [e]
      exact (infNorm_sq_sum _ _).trans (le_add_of_nonneg_left (sum_nonneg fun k _ => sum_nonneg fun i _ => sq_nonneg _))

/-- one turn of the loop -/
theorem ctTurn_ok (h : s.Packed) (hq : s.At q) (hy : s.Heavy q) (hf : CtFit s ms nc) (hmu : 0 ≤ mu)
    {z : CtData K × (ℕ → CtCon K)} (hz : CtInv s q v tau ms des nc mu z) (d : Data K) :
    let cd := upTo (fun k c => upd c k (ctDev (ms k) (des k) z.1 (c k))) nc z.2
    let u := upTo (ctLoad mu ms) nc (z.1, cd)
    (∀ k < nc, (cd k).force = (z.2 k).force ∧ ∀ r, (cd k).dev.row r = ctErr s q v ms des d z.1.data.ddq k r) ∧
    CtInv s q v tau ms des nc mu (z.1, cd) ∧ CtInv s q v tau ms des nc mu (ctPasses s tau u.1, u.2) ∧
    ∀ k < nc, u.2 k = ctUpd mu (ms k) (cd k) := by
  intro cd u
  have hpt := upTo_point (fun k c => ctDev (ms k) (des k) z.1 c) nc z.2
  have hdev : ∀ k < nc, cd k = ctDev (ms k) (des k) z.1 (z.2 k) := hpt.1
  have hcon : ∀ k < nc, CtConOk s q v (ms k) (des k) (cd k) := fun k hk => by
    rw [hdev k hk]; exact ((hz.con k hk).dev _).1
  have hfor : ∀ k < nc, (cd k).force = (z.2 k).force := fun k hk => by
    rw [hdev k hk]; exact ((hz.con k hk).dev z.1).2
  have hdv : ∀ k < nc, (cd k).dev = (ms k).accIn (forwardKinematicsA s d q v z.1.data.ddq) - des k := fun k hk => by
    rw [hdev k hk]
    exact ctDev_dev h hq (hf.joint k hk).1 (hf.joint k hk).2 (hf.place k hk) (hz.con k hk)
      (hz.sol.acc _ (hf.joint k hk).1 (hf.joint k hk).2) d
  have hpo : CtPoint ms nc cd := fun k hk e => by rw [hfor k hk]; exact hz.point k hk e
  have hg : ∀ i, ctg mu ms nc cd i = ctg mu ms nc z.2 i := by
    intro i
    refine sum_congr rfl fun k hk => ?_
    have hk := mem_range.1 hk
    have e1 := hcon k hk
    have e2 := hz.con k hk
    split
    · unfold ctForce
      rw [hfor k hk, e1.oMc, e2.oMc, e1.adr, e2.adr]
    · rfl
  obtain ⟨l1, l2, l3⟩ := ctLoad_ok (mu := mu) hf hz.aug cd
  obtain ⟨p1, p2, p3⟩ := ctPasses_ok (v := v) (tau := tau) (x := u.1) (cd := u.2) h hq hy hf hmu
    ⟨by rw [l2]; exact hz.base.J, by rw [l2]; exact hz.base.a, by rw [l2]; exact hz.base.f, by
      obtain ⟨A, hA, hF⟩ := hz.base.fac
      rw [l2]
      refine ⟨A, hA, fun i h1 hi => ?_⟩
      have := hF i h1 hi
      exact ⟨by rw [l2]; exact this.StU, by rw [l2]; exact this.Dinv, by rw [l2]; exact this.UDinv, by rw [l2]; exact this.Y⟩⟩ l3
  refine ⟨fun k hk => ⟨hfor k hk, fun r => ?_⟩, ⟨hz.base, ⟨hz.sol.acc, fun w => ?_⟩, hz.aug, hcon, hpo⟩, ⟨p1, p2, p3, fun k hk => ?_,
    fun k hk e => ?_⟩, l1⟩
  · rw [hdv k hk, Motion.row_sub]; rfl
  · rw [hz.sol.eq w]
    congr 1
    exact sum_congr rfl fun i _ => by rw [hg]
  · change CtConOk _ _ _ _ _ (u.2 k)
    rw [l1 k hk]; exact ((hcon k hk).upd mu).1
  · change (u.2 k).force.ang = 0
    rw [l1 k hk]; exact ((hcon k hk).upd mu).2 e (hpo k hk e)

/-- the loop -/
theorem ctLoop_ok (h : s.Packed) (hq : s.At q) (hy : s.Heavy q) (hf : CtFit s ms nc) {st : ProxSet K} (hmu : 0 ≤ st.mu) (d : Data K) :
    ∀ (n : ℕ) (z : CtData K × (ℕ → CtCon K)) (r : K), CtInv s q v tau ms des nc st.mu z →
    let y := ctLoop s tau ms des nc st n z r
    CtInv s q v tau ms des nc st.mu y.1 ∧
    (y.2 < st.absAcc → 1 ≤ n → ∀ k < nc, ∀ e < (ms k).type.dim,
      |((ms k).accIn (forwardKinematicsA s d q v y.1.1.data.ddq)).row e - (des k).row e| ≤ y.2) := by
  intro n
  induction n with
  | zero => intro z r hz; exact ⟨hz, fun _ hn => by omega⟩
  | succ n ih =>
    intro z r hz
    obtain ⟨t1, t2, t3, -⟩ := ctTurn_ok h hq hy hf hmu hz d
    unfold ctLoop
    dsimp only
    set cd := upTo (fun k c => upd c k (ctDev (ms k) (des k) z.1 (c k))) nc z.2 with hcd
    by_cases hstop : ctMeasure ms nc cd < st.absAcc
    · rw [if_pos hstop]
      refine ⟨t2, fun _ _ k hk e he => ?_⟩
      have := (ctMeasure_le ms nc cd).2 k hk e he
      rw [(t1 k hk).2] at this
      exact this
    · rw [if_neg hstop]
      obtain ⟨i1, i2⟩ := ih _ (ctMeasure ms nc cd) t3
      refine ⟨i1, fun hlt _ => ?_⟩
      by_cases hn : 1 ≤ n
      · exact i2 hlt hn
      · have : n = 0 := by omega
        subst this
        exact absurd hlt hstop

theorem ctUpd_row (mu : K) (m : RCM K) (c : CtCon K) {r : ℕ} (hr : r < m.type.dim) :
    (ctUpd mu m c).force.row r = c.force.row r + mu * c.dev.row r := by
  unfold ctUpd
  cases hm : m.type with
  | CONTACT_3D =>
    rw [hm] at hr
    change r < 3 at hr
    interval_cases r <;> simp [Force.row, Motion.row]
  | CONTACT_6D =>
    rw [hm] at hr
    change r < 6 at hr
    interval_cases r <;> simp [Force.row, Motion.row]

/-- the loop stops -/
theorem ctLoop_stop (h : s.Packed) (hq : s.At q) (hy : s.Heavy q) (hf : CtFit s ms nc) {st : ProxSet K} (hmu : 0 ≤ st.mu)
    (hacc : 0 < st.absAcc) (d : Data K) {a : ℕ → K} {f : ℕ → ℕ → K}
    (ha : ∀ r < s.nv, (rnea s d q v a).tau r + s.conPower q ms nc f (Sys.unit r) = tau r)
    (hc : ∀ k < nc, ∀ r < (ms k).type.dim, ctErr s q v ms des d a k r = 0) :
    ∀ (n : ℕ) (z : CtData K × (ℕ → CtCon K)) (r : K), CtInv s q v tau ms des nc st.mu z →
    conSum ms nc (fun k r => (ctMult s q v ms st.mu d z.2 k r - f k r) ^ 2) < n * (st.mu * st.absAcc) ^ 2 →
    (ctLoop s tau ms des nc st n z r).2 < st.absAcc := by
  intro n
  induction n with
  | zero =>
    intro z r _ hlt
    rw [Nat.cast_zero, zero_mul] at hlt
    exact absurd hlt (not_lt.2 (sum_nonneg fun k _ => sum_nonneg fun i _ => sq_nonneg _))
  | succ n ih =>
    intro z r hz hlt
    obtain ⟨t1, t2, t3, t4⟩ := ctTurn_ok h hq hy hf hmu hz d
    unfold ctLoop
    dsimp only
    set cd := upTo (fun k c => upd c k (ctDev (ms k) (des k) z.1 (c k))) nc z.2 with hcd
    by_cases hstop : ctMeasure ms nc cd < st.absAcc
    · rw [if_pos hstop]; exact hstop
    · rw [if_neg hstop]
      refine ih _ _ t3 ?_
      have e1 := ct_descent h hq hy hf hmu hz d ha hc
      have e2 := ctMeasure_sq ms nc cd
      have e3 : conSum ms nc (fun k r => (cd k).dev.row r ^ 2) = conSum ms nc (fun k r => ctErr s q v ms des d z.1.data.ddq k r ^ 2) :=
        sum_congr rfl fun k hk => sum_congr rfl fun r _ => by dsimp only; rw [(t1 k (mem_range.1 hk)).2 r]
      have e4 : conSum ms nc (fun k r => (ctMult s q v ms st.mu d (upTo (ctLoad st.mu ms) nc (z.1, cd)).2 k r - f k r) ^ 2)
          = conSum ms nc (fun k r => (ctMult s q v ms st.mu d z.2 k r + st.mu * ctErr s q v ms des d z.1.data.ddq k r - f k r) ^ 2) :=
        sum_congr rfl fun k hk => sum_congr rfl fun r hr => by
          have hk := mem_range.1 hk
          dsimp only
          unfold ctMult
          rw [t4 k hk, ctUpd_row _ _ _ (mem_range.1 hr), (t1 k hk).1, (t1 k hk).2]
          ring
      have e5 : st.absAcc ^ 2 ≤ ctMeasure ms nc cd ^ 2 := pow_le_pow_left₀ hacc.le (not_lt.1 hstop) 2
      have e6 := mul_le_mul_of_nonneg_left (e5.trans (e2.trans_eq e3)) (sq_nonneg st.mu)
      dsimp only
      rw [e4]
      push_cast at hlt
      nlinarith

theorem ctMeasure_congr {cd cd' : ℕ → CtCon K} (e : ∀ k < nc, ∀ r < (ms k).type.dim, (cd k).dev.row r = (cd' k).dev.row r) :
    ctMeasure ms nc cd = ctMeasure ms nc cd' := by
  have hin : ∀ n (x y : ℕ → K), (∀ i < n, x i = y i) → infNorm n x = infNorm n y := by
    intro n x y hxy
    unfold infNorm
    induction n with
    | zero => rfl
    | succ n ih => rw [upTo_succ, upTo_succ, ih fun i hi => hxy i (by omega), hxy n (by omega)]
  unfold ctMeasure
  induction nc with
  | zero => rfl
  | succ n ih =>
    rw [upTo_succ, upTo_succ, ih fun k hk => e k (by omega), hin _ _ _ (e n (by omega))]

theorem Force.ext_rows {f g : Force K} (e : ∀ r < 6, f.row r = g.row r) : f = g := by
  ext
  · exact e 0 (by omega)
  · exact e 1 (by omega)
  · exact e 2 (by omega)
  · exact e 3 (by omega)
  · exact e 4 (by omega)
  · exact e 5 (by omega)

/-- two runs from the same forces -/
theorem ctLoop_same (h : s.Packed) (hq : s.At q) (hy : s.Heavy q) (hf : CtFit s ms nc) {st : ProxSet K} (hmu : 0 ≤ st.mu) :
    ∀ (n : ℕ) (z z' : CtData K × (ℕ → CtCon K)) (r : K), CtInv s q v tau ms des nc st.mu z → CtInv s q v tau ms des nc st.mu z' →
    (∀ k < nc, (z.2 k).force = (z'.2 k).force) →
    let y := ctLoop s tau ms des nc st n z r
    let y' := ctLoop s tau ms des nc st n z' r
    y.2 = y'.2 ∧ (∀ r < s.nv, y.1.1.data.ddq r = y'.1.1.data.ddq r) ∧ ∀ k < nc, (y.1.2 k).force = (y'.1.2 k).force := by
  intro n
  induction n with
  | zero => intro z z' r hz hz' e; exact ⟨rfl, (ct_determined h hq hy hf hmu hz hz' e).1, e⟩
  | succ n ih =>
    intro z z' r hz hz' e
    have hd := ct_determined h hq hy hf hmu hz hz' e
    obtain ⟨t1, t2, t3, t4⟩ := ctTurn_ok h hq hy hf hmu hz Data.zero
    obtain ⟨t1', t2', t3', t4'⟩ := ctTurn_ok h hq hy hf hmu hz' Data.zero
    unfold ctLoop
    dsimp only
    set cd := upTo (fun k c => upd c k (ctDev (ms k) (des k) z.1 (c k))) nc z.2 with hcd
    set cd' := upTo (fun k c => upd c k (ctDev (ms k) (des k) z'.1 (c k))) nc z'.2 with hcd'
    have hrow : ∀ k < nc, ∀ r < (ms k).type.dim, (cd k).dev.row r = (cd' k).dev.row r := fun k hk r hr => by
      rw [(t1 k hk).2, (t1' k hk).2, hd.2 Data.zero k hk r hr]
    have hm := ctMeasure_congr hrow
    have hfo : ∀ k < nc, (cd k).force = (cd' k).force := fun k hk => by rw [(t1 k hk).1, (t1' k hk).1, e k hk]
    rw [← hm]
    by_cases hstop : ctMeasure ms nc cd < st.absAcc
    · rw [if_pos hstop, if_pos hstop]
      exact ⟨rfl, hd.1, hfo⟩
    · rw [if_neg hstop, if_neg hstop]
      refine ih _ _ _ t3 t3' fun k hk => ?_
      have hrow' : ∀ r < (ms k).type.dim, ((upTo (ctLoad st.mu ms) nc (z.1, cd)).2 k).force.row r
          = ((upTo (ctLoad st.mu ms) nc (z'.1, cd')).2 k).force.row r := fun r hr => by
        rw [t4 k hk, t4' k hk, ctUpd_row _ _ _ hr, ctUpd_row _ _ _ hr, hfo k hk, hrow k hk r hr]
      dsimp only
      cases hm : (ms k).type with
      | CONTACT_6D => rw [hm] at hrow'; exact Force.ext_rows hrow'
      | CONTACT_3D =>
        rw [hm] at hrow'
        have p1 := t3.point k hk hm
        have p2 := t3'.point k hk hm
        refine Force.ext (V3.ext ?_ ?_ ?_) (p1.trans p2.symm)
        · exact hrow' 0 (by decide)
        · exact hrow' 1 (by decide)
        · exact hrow' 2 (by decide)

end ord

end Pin
