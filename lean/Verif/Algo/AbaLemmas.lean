import Verif.Algo.AbaCore
import Verif.Algo.Passes
import Verif.Algo.CrbaLemmas

/-! # The two conventions of ABA are the abstract recursion -/

namespace Pin
open Finset

theorem bwd_proj {D E : Type*} {step : ℕ → D → D} {step' : ℕ → E → E} (π : D → E) (Inv : D → Prop) {n : ℕ} {d : D}
    (h0 : Inv d) (hs : ∀ i d, 1 ≤ i → i < n → Inv d → Inv (step i d) ∧ π (step i d) = step' i (π d)) :
    Inv (bwd step n d) ∧ π (bwd step n d) = bwd step' n (π d) := by
  have key : ∀ l : List ℕ, (∀ i ∈ l, 1 ≤ i ∧ i < n) → Inv (l.foldr step d) ∧ π (l.foldr step d) = l.foldr step' (π d) := by
    intro l
    induction l with
    | nil => intro _; exact ⟨h0, rfl⟩
    | cons i l ih =>
      intro hl
      obtain ⟨a, b⟩ := ih fun j hj => hl j (List.mem_cons_of_mem _ hj)
      obtain ⟨c, e⟩ := hs i _ (hl i List.mem_cons_self).1 (hl i List.mem_cons_self).2 a
      refine ⟨c, ?_⟩
      change π (step i (List.foldr step d l)) = step' i (List.foldr step' (π d) l)
      rw [e, b]
  apply key
  intro i hi
  rw [List.mem_range'_1] at hi
  omega

theorem fwd_proj {D E : Type*} {step : ℕ → D → D} {step' : ℕ → E → E} (π : D → E) (Inv : D → Prop) {n : ℕ} {d : D}
    (h0 : Inv d) (hs : ∀ i d, 1 ≤ i → i < n → Inv d → Inv (step i d) ∧ π (step i d) = step' i (π d)) :
    Inv (fwd step n d) ∧ π (fwd step n d) = fwd step' n (π d) := by
  have key : ∀ (l : List ℕ) (d : D), Inv d → (∀ i ∈ l, 1 ≤ i ∧ i < n) →
      Inv (l.foldl (fun d i => step i d) d) ∧
      π (l.foldl (fun d i => step i d) d) = l.foldl (fun d i => step' i d) (π d) := by
    intro l
    induction l with
    | nil => intro d h _; exact ⟨h, rfl⟩
    | cons i l ih =>
      intro d h hl
      obtain ⟨c, e⟩ := hs i d (hl i List.mem_cons_self).1 (hl i List.mem_cons_self).2 h
      have := ih (step i d) c fun j hj => hl j (List.mem_cons_of_mem _ hj)
      rw [e] at this
      exact this
  apply key _ _ h0
  intro i hi
  rw [List.mem_range'_1] at hi
  omega

variable {K : Type*} [Field K] {s : Sys K}

/-! ## local convention -/

/-- velocity-product acceleration of joint `i` -/
def Sys.bias (s : Sys K) (q v : ℕ → K) (i : ℕ) : Motion K := s.cb q v i + (s.V q v i).cross (s.jvel q v i)

/-- after the first pass, local convention -/
structure AL1 (s : Sys K) (q v : ℕ → K) (p : ℕ → Force K) (t : ℕ → K) (k : ℕ) (d : Data K) : Prop where
  li : ∀ i, 1 ≤ i → i < k → d.liMi i = s.X q i ∧ (d.joints i).S = s.S q i
  a : ∀ i, 1 ≤ i → i < k → d.a_gf i = s.bias q v i
  a0 : d.a_gf 0 = -s.grav
  vel : ∀ i, 1 ≤ i → i < k → d.v i = s.V q v i
  Y : ∀ i, 1 ≤ i → i < k → d.Yaba i = (s.Y i).matrix
  f : ∀ i, 1 ≤ i → i < k → d.f i = p i
  h : ∀ i, 1 ≤ i → i < k → d.h i = (s.Y i).mul (s.V q v i)
  u : d.u = t

theorem abaLocalFwd1_proj {q v : ℕ → K} {i : ℕ} (d : Data K) (hpi : s.par i ≠ i) (hq : (s.jt i).Ok (s.qs q i)) :
    (abaLocalFwd1 s q v i d).liMi = upd d.liMi i (s.X q i) ∧
    (abaLocalFwd1 s q v i d).joints = upd d.joints i ((s.jt i).calcV (s.qs q i) (s.vs v i) (d.joints i)) ∧
    (abaLocalFwd1 s q v i d).v = upd d.v i
      (if s.par i > 0 then s.jvel q v i + (s.X q i).actInv (d.v (s.par i)) else s.jvel q v i) ∧
    (abaLocalFwd1 s q v i d).a_gf = upd d.a_gf i (s.cb q v i
      + ((abaLocalFwd1 s q v i d).v i).cross (s.jvel q v i)) ∧
    (abaLocalFwd1 s q v i d).Yaba = upd d.Yaba i (s.Y i).matrix ∧
    (abaLocalFwd1 s q v i d).h = upd d.h i ((s.Y i).mul ((abaLocalFwd1 s q v i d).v i)) ∧
    (abaLocalFwd1 s q v i d).f = upd d.f i
      (((abaLocalFwd1 s q v i d).v i).crossF ((s.Y i).mul ((abaLocalFwd1 s q v i d).v i))) ∧
    (abaLocalFwd1 s q v i d).u = d.u := by
  have hvel : (s.jt i).v (s.qs q i) (s.vs v i) = s.jvel q v i := hq.vel _
  by_cases h : s.par i > 0
  · simp only [abaLocalFwd1, h, if_true, upd_self, upd_ne _ _ hpi, Joint.calcV, hvel, Function.update_idem]
    refine ⟨?_, ?_, ?_, ?_, ?_, ?_, ?_, ?_⟩ <;> first | trivial | rfl
  · simp only [abaLocalFwd1, h, if_false, upd_self, upd_ne _ _ hpi, Joint.calcV, hvel, Function.update_idem]
    refine ⟨?_, ?_, ?_, ?_, ?_, ?_, ?_, ?_⟩ <;> first | trivial | rfl

/-- one step of the first pass, with or without external force -/
theorem AL1.step (hp : ParOk s.par s.n) {q : ℕ → K} (hq : s.At q) {v t : ℕ → K} {p : ℕ → Force K}
    {i : ℕ} {d : Data K} (h1 : 1 ≤ i) (hi : i < s.n) (h : AL1 s q v p t i d) {d' : Data K}
    (hd' : d' = { (abaLocalFwd1 s q v i d) with f := d'.f }) (hfo : ∀ j, j ≠ i → d'.f j = d.f j)
    (hfi : (abaLocalFwd1 s q v i d).f i = (s.V q v i).crossF ((s.Y i).mul (s.V q v i)) → d'.f i = p i) :
    AL1 s q v p t (i + 1) d' := by
  have hpi := hp.2 i h1 hi
  have hne : s.par i ≠ i := by omega
  obtain ⟨e1, e2, e3, e4, e5, e6, e7, e8⟩ := abaLocalFwd1_proj (v := v) d hne (hq.jt i h1 hi)
  have ev : (abaLocalFwd1 s q v i d).v i = s.V q v i := by
    rw [e3, upd_self]; exact v_code hp h1 hi h.vel
  rw [hd']
  refine ⟨fun j hj1 hj => ?_, fun j hj1 hj => ?_, ?_, fun j hj1 hj => ?_, fun j hj1 hj => ?_, fun j hj1 hj => ?_,
    fun j hj1 hj => ?_, ?_⟩
  · by_cases hji : j = i
    · subst hji; simp only [e1, e2, upd_self, Joint.calcV]; first | exact ⟨trivial, rfl⟩ | exact ⟨rfl, rfl⟩ | trivial
    · simp only [e1, e2, upd_ne _ _ hji]; exact h.li j hj1 (by omega)
  · by_cases hji : j = i
    · subst hji; simp only [e4, upd_self, ev]; rfl
    · simp only [e4, upd_ne _ _ hji]; exact h.a j hj1 (by omega)
  · simp only [e4]; rw [upd_ne _ _ (by omega)]; exact h.a0
  · by_cases hji : j = i
    · subst hji; exact ev
    · simp only [e3, upd_ne _ _ hji]; exact h.vel j hj1 (by omega)
  · by_cases hji : j = i
    · subst hji; simp only [e5, upd_self]
    · simp only [e5, upd_ne _ _ hji]; exact h.Y j hj1 (by omega)
  · by_cases hji : j = i
    · subst hji
      exact hfi (by rw [e7, upd_self, ev])
    · change d'.f j = p j
      rw [hfo j hji]; exact h.f j hj1 (by omega)
  · by_cases hji : j = i
    · subst hji; simp only [e6, upd_self, ev]
    · simp only [e6, upd_ne _ _ hji]; exact h.h j hj1 (by omega)
  · simp only [e8]; exact h.u

/-- the abstract recursion in the joint frames -/
def locP (s : Sys K) (q v : ℕ → K) : AbaP K where
  S := s.S q
  Um i := (s.X q i).actInv
  Tf i := (s.X q i).actF
  TM i := (s.X q i).actOn
  c := s.bias q v

/-- what the backward pass writes, local convention -/
def locπ (d : Data K) : AS K where
  Y := d.Yaba
  f := d.f
  u := d.u
  U i := (d.joints i).U
  StU i := (d.joints i).StU
  Dinv i := (d.joints i).Dinv
  UDinv i := (d.joints i).UDinv

theorem upd_comp {α β : Type*} (g : α → β) (x : ℕ → α) (i : ℕ) (y : α) :
    (fun j => g (upd x i y j)) = upd (fun j => g (x j)) i (g y) := by
  funext j
  by_cases h : j = i
  · subst h; rw [upd_self, upd_self]
  · rw [upd_ne _ _ h, upd_ne _ _ h]

theorem AS.ext' {a b : AS K} (h1 : a.Y = b.Y) (h2 : a.f = b.f) (h3 : a.u = b.u) (h4 : a.U = b.U)
    (h5 : a.StU = b.StU) (h6 : a.Dinv = b.Dinv) (h7 : a.UDinv = b.UDinv) : a = b := by
  cases a; cases b; simp_all

section calcAba
variable (jd : JD K) (n : ℕ) (S : ℕ → Motion K) (arm : ℕ → K) (I : M6 K)
theorem calcAba_U : (jd.calcAba n S arm I).U = fun k => I.mulMF (S k) := rfl
theorem calcAba_StU : (jd.calcAba n S arm I).StU = dMat S arm I := rfl
theorem calcAba_Dinv : (jd.calcAba n S arm I).Dinv = invBlock n (dMat S arm I) := rfl
theorem calcAba_UDinv : (jd.calcAba n S arm I).UDinv = udCol n S arm I := rfl
theorem calcAba_S : (jd.calcAba n S arm I).S = jd.S := rfl
theorem calcAba_down : (jd.calcAba n S arm I).down n I = artDown n S arm I := rfl
end calcAba

theorem abaLocalBwd_proj {q v : ℕ → K} {i : ℕ} {d : Data K} (hpi : s.par i ≠ i)
    (hli : d.liMi i = s.X q i) (hS : (d.joints i).S = s.S q i) (ha : d.a_gf i = s.bias q v i) :
    locπ (abaLocalBwd s i d) = absBwd s (locP s q v) i (locπ d) := by
  by_cases h : s.par i > 0
  · apply AS.ext' <;>
    simp only [abaLocalBwd, absBwd, locπ, locP, h, if_true, upd_self, upd_ne _ _ hpi, hli, ha, upd_comp, calcAba_U,
      calcAba_StU, calcAba_Dinv, calcAba_UDinv, calcAba_down, hS]
  · apply AS.ext' <;>
    simp only [abaLocalBwd, absBwd, locπ, locP, h, if_false, upd_comp, calcAba_U,
      calcAba_StU, calcAba_Dinv, calcAba_UDinv, calcAba_down, hS]

theorem abaLocalBwd_keep (i : ℕ) (d : Data K) :
    (abaLocalBwd s i d).liMi = d.liMi ∧ (∀ j, ((abaLocalBwd s i d).joints j).S = (d.joints j).S) ∧
    (abaLocalBwd s i d).a_gf = d.a_gf ∧ (abaLocalBwd s i d).ddq = d.ddq := by
  have key : ∀ j, (upd d.joints i ((d.joints i).calcAba (s.jnv i) (d.joints i).S (seg s.arm (s.iv i)) (d.Yaba i)) j).S
      = (d.joints j).S := by
    intro j
    by_cases hj : j = i
    · subst hj; rw [upd_self]; rfl
    · rw [upd_ne _ _ hj]
  unfold abaLocalBwd
  by_cases h : s.par i > 0
  · simp only [h, if_true]; exact ⟨trivial, key, trivial, trivial⟩
  · simp only [h, if_false]; exact ⟨trivial, key, trivial, trivial⟩

/-- the passes after the first one, local convention -/
def abaLocalRest (s : Sys K) (d : Data K) : Data K :=
  bwd (abaLocalEnd s) s.n (fwd (abaLocalFwd2 s) s.n (bwd (abaLocalBwd s) s.n d))

theorem Inertia.crossF_fix (Y : Inertia K) (v a : Motion K) (e : Force K) :
    Y.matrix.mulMF a + (v.crossF (Y.mul v) - e) = Y.mul a + v.crossF (Y.mul v) - e := by
  rw [Inertia.matrix_mulMF]; abel

theorem abaLocalRest_ok (h : s.Packed) {q : ℕ → K} {v t : ℕ → K} {p : ℕ → Force K} {d : Data K}
    (hd : AL1 s q v p t s.n d) :
    (∃ G, IsAcc s.par s.n (artT s (locP s q v) t) (fun i => ((s.Y i).matrix, p i)) G ∧
      ∀ i, 1 ≤ i → i < s.n → ArtAt s (locP s q v) t i (G i) (locπ (abaLocalRest s d)) ) ∧
    ((∀ i, 1 ≤ i → i < s.n → InvOk (s.jnv i) ((abaLocalRest s d).joints i).StU) →
      (∀ i, i < s.n → (abaLocalRest s d).a_gf i = s.A (-s.grav) q v (abaLocalRest s d).ddq i) ∧
      ∀ w, s.dotv w t = (∑ i ∈ Ico 1 s.n, (s.V q w i).dot
          ((s.Y i).mul (s.A (-s.grav) q v (abaLocalRest s d).ddq i) + p i))
        + s.dotv w (fun r => s.arm r * (abaLocalRest s d).ddq r)) := by
  set d2 := bwd (abaLocalBwd s) s.n d with hd2
  -- backward pass
  obtain ⟨⟨k1, k2, k3, -⟩, b2⟩ := bwd_proj (step := abaLocalBwd s) (step' := absBwd s (locP s q v)) (n := s.n) (d := d) locπ
    (fun e => e.liMi = d.liMi ∧ (∀ j, (e.joints j).S = (d.joints j).S) ∧ e.a_gf = d.a_gf ∧ e.ddq = d.ddq)
    ⟨rfl, fun _ => rfl, rfl, rfl⟩ (by
      rintro i e h1 hi ⟨a, b, c, c'⟩
      obtain ⟨a', b', c1, c2⟩ := abaLocalBwd_keep (s := s) i e
      refine ⟨⟨a'.trans a, fun j => (b' j).trans (b j), c1.trans c, c2.trans c'⟩, ?_⟩
      have := h.par.2 i h1 hi
      exact abaLocalBwd_proj (by omega) (by rw [a]; exact (hd.li i h1 hi).1) (by rw [b]; exact (hd.li i h1 hi).2)
        (by rw [c]; exact hd.a i h1 hi))
  rw [← hd2] at k1 k2 k3 b2
  obtain ⟨G, g1, g2⟩ := absBwd_ok (P := locP s q v) h (I0 := fun i => (s.Y i).matrix) (p := p) (t := t)
    (st := locπ d) hd.Y hd.f hd.u
  rw [← b2] at g2
  -- forward pass
  obtain ⟨⟨m1, m2, -⟩, c2⟩ := fwd_proj (step := abaLocalFwd2 s) (step' := absFwd s (locP s q v) (locπ d2)) (n := s.n)
    (d := d2) (fun e => (e.a_gf, e.ddq))
    (fun e => e.joints = d2.joints ∧ e.u = d2.u ∧ e.liMi = d2.liMi) ⟨rfl, rfl, rfl⟩ (by
      rintro i e h1 hi ⟨a, b, c⟩
      refine ⟨⟨a, b, c⟩, ?_⟩
      have hS : (d2.joints i).S = s.S q i := by rw [k2]; exact (hd.li i h1 hi).2
      have hL : d2.liMi i = s.X q i := by rw [k1]; exact (hd.li i h1 hi).1
      have hne : s.par i ≠ i := by have := h.par.2 i h1 hi; omega
      simp only [abaLocalFwd2, absFwd, locπ, locP, a, b, c, hS, hL, upd_self, Function.update_idem])
  set d3 := fwd (abaLocalFwd2 s) s.n d2 with hd3
  -- last loop
  have hend := bwd_ind (step := abaLocalEnd s) (n := s.n) (d := d3)
    (P := fun _ (e : Data K) => e.joints = d3.joints ∧ e.u = d3.u ∧ e.ddq = d3.ddq ∧ e.a_gf = d3.a_gf) h.par.1
    ⟨rfl, rfl, rfl, rfl⟩ (fun i e _ _ ih => ih)
  have hrest : abaLocalRest s d = bwd (abaLocalEnd s) s.n d3 := rfl
  rw [hrest]
  set d4 := bwd (abaLocalEnd s) s.n d3 with hd4
  have hst : ∀ i, 1 ≤ i → i < s.n → ArtAt s (locP s q v) t i (G i) (locπ d4) := by
    intro i h1 hi
    have := g2 i h1 hi
    have e : d4.joints = d2.joints := hend.1.trans m1
    have e' : d4.u = d2.u := hend.2.1.trans m2
    refine ⟨?_, ?_, ?_, ?_, ?_⟩
    · change (d4.joints i).U = _; rw [e]; exact this.U
    · change (d4.joints i).StU = _; rw [e]; exact this.StU
    · change (d4.joints i).Dinv = _; rw [e]; exact this.Dinv
    · change (d4.joints i).UDinv = _; rw [e]; exact this.UDinv
    · change ∀ l < _, d4.u _ = _; rw [e']; exact this.u
  refine ⟨⟨G, g1, hst⟩, fun hD => ?_⟩
  obtain ⟨z, zz⟩ := absFwd_ok (P := locP s q v) h (locπ d2) (c := s.bias q v) (a0 := -s.grav) (a := d2.a_gf) (q0 := d2.ddq)
    (by rw [k3]; exact hd.a0) (by intro i h1 hi; rw [k3]; exact hd.a i h1 hi)
  rw [← c2] at z zz
  have hacc : ∀ i, i < s.n → d4.a_gf i = s.A (-s.grav) q v d4.ddq i := by
    rw [hend.2.2.1, hend.2.2.2]
    intro i hi; refine Sys.joint_ind s h.par ?_ ?_ i hi <;> clear hi i
    · rw [s.A_zero]; exact z
    · intro i h1 hi ih
      rw [s.A_step h1 (h.par.2 i h1 hi), ← ih]
      refine (zz i h1 hi).1.trans ?_
      change s.cb q v i + (s.V q v i).cross (s.jvel q v i) + (s.X q i).actInv _ + s.jvel q d3.ddq i = _
      abel
  refine ⟨hacc, fun w => ?_⟩
  have := aba_core (P := locP s q v) h g1 (fun i _ _ => (s.Y i).matrix_symm) (fun i A hA => SE3.actOn_symm _ hA)
    (fun i A hA v => SE3.actOn_mulMF _ hA v) (fun i v f => SE3.dot_actInv _ _ _) (fun i f g => SE3.actF_add _ _ _)
    hst hD (a := d4.a_gf) (x := d4.ddq) (by
      intro i h1 hi
      have := zz i h1 hi
      rw [hend.2.2.1, hend.2.2.2]
      have e : (locπ d4).Dinv = (locπ d2).Dinv ∧ (locπ d4).UDinv = (locπ d2).UDinv ∧ (locπ d4).u = (locπ d2).u := by
        refine ⟨?_, ?_, hend.2.1.trans m2⟩
        · change (fun i => (d4.joints i).Dinv) = _; rw [hend.1, m1]; rfl
        · change (fun i => (d4.joints i).UDinv) = _; rw [hend.1, m1]; rfl
      rw [e.1, e.2.1, e.2.2]
      exact this) (w := w) (V := s.V q w) (s.V_zero q w) (fun i h1 hi => s.V_step h1 (h.par.2 i h1 hi))
  rw [this]
  congr 1
  apply sum_congr rfl
  intro i hi
  rw [mem_Ico] at hi
  rw [hacc i hi.2, Inertia.matrix_mulMF]

theorem AL1.zero (q v : ℕ → K) (p : ℕ → Force K) (t : ℕ → K) {d : Data K} (h : d.a_gf 0 = -s.grav) (hu : d.u = t) :
    AL1 s q v p t 1 d :=
  ⟨fun i h1 hi => by omega, fun i h1 hi => by omega, h, fun i h1 hi => by omega, fun i h1 hi => by omega,
    fun i h1 hi => by omega, fun i h1 hi => by omega, hu⟩

/-- the bias force of body `i` with an external force -/
def Sys.bf (s : Sys K) (q v : ℕ → K) (e : ℕ → Force K) (i : ℕ) : Force K :=
  (s.V q v i).crossF ((s.Y i).mul (s.V q v i)) - e i

theorem abaLocal_al1 (hp : ParOk s.par s.n) {q : ℕ → K} (hq : s.At q) (v t : ℕ → K) {d : Data K}
    (h : d.a_gf 0 = -s.grav) (hu : d.u = t) :
    AL1 s q v (s.bf q v (fun _ => 0)) t s.n (fwd (abaLocalFwd1 s q v) s.n d) := by
  apply fwd_ind (P := fun k (d : Data K) => AL1 s q v (s.bf q v (fun _ => 0)) t k d) hp.1
  · exact AL1.zero _ _ _ _ h hu
  · intro i d h1 hi ih
    have hne : s.par i ≠ i := by have := hp.2 i h1 hi; omega
    obtain ⟨-, -, -, -, -, -, e7, -⟩ := abaLocalFwd1_proj (v := v) d hne (hq.jt i h1 hi)
    refine ih.step hp hq h1 hi rfl (fun j hj => by rw [e7, upd_ne _ _ hj]) (fun e => ?_)
    rw [e]; unfold Sys.bf; abel

theorem abaLocalFext_al1 (hp : ParOk s.par s.n) {q : ℕ → K} (hq : s.At q) (v t : ℕ → K) (fext : ℕ → Force K) {d : Data K}
    (h : d.a_gf 0 = -s.grav) (hu : d.u = t) :
    AL1 s q v (s.bf q v fext) t s.n (fwd (fun i d =>
      let d := abaLocalFwd1 s q v i d
      { d with f := upd d.f i (d.f i - fext i) }) s.n d) := by
  apply fwd_ind (P := fun k (d : Data K) => AL1 s q v (s.bf q v fext) t k d) hp.1
  · exact AL1.zero _ _ _ _ h hu
  · intro i d h1 hi ih
    have hne : s.par i ≠ i := by have := hp.2 i h1 hi; omega
    obtain ⟨-, -, -, -, -, -, e7, -⟩ := abaLocalFwd1_proj (v := v) d hne (hq.jt i h1 hi)
    refine ih.step hp hq h1 hi rfl (fun j hj => ?_) (fun e => ?_)
    · change upd (abaLocalFwd1 s q v i d).f i _ j = _
      rw [upd_ne _ _ hj, e7, upd_ne _ _ hj]
    · change upd (abaLocalFwd1 s q v i d).f i _ i = _
      rw [upd_self, e]; rfl

/-! ## world convention -/

theorem Sys.Packed.putSeg_ne' {α : Type*} (h : s.Packed) (x : ℕ → α) (y : ℕ → α) {i j l : ℕ} (hi1 : 1 ≤ i)
    (hi : i < s.n) (hj1 : 1 ≤ j) (hj : j < s.n) (hl : l < s.jnv j) (hji : j ≠ i) :
    putSeg x (s.iv i) (s.jnv i) y (s.iv j + l) = x (s.iv j + l) := by
  apply putSeg_out
  rintro ⟨a, b⟩
  exact hji (h.inj hj1 hj hi1 hi hl (show s.iv j + l - s.iv i < s.jnv i by omega) (by omega)).1

/-- velocity-product acceleration of joint `i`, in the world frame -/
def Sys.obias (s : Sys K) (q v : ℕ → K) (i : ℕ) : Motion K :=
  (s.oM q i).act (s.cb q v i) + (s.oV q v (s.par i)).cross (s.oV q v i)

/-- after the first pass, world convention -/
structure AW1 (s : Sys K) (q v : ℕ → K) (p : ℕ → Force K) (t : ℕ → K) (k : ℕ) (d : Data K) : Prop where
  oM : ∀ i, 1 ≤ i → i < k → d.oMi i = s.oM q i
  J : ∀ i, 1 ≤ i → i < k → ∀ l, l < s.jnv i → d.J (s.iv i + l) = s.Jc q i l
  vel : ∀ i, 1 ≤ i → i < k → d.ov i = s.oV q v i
  a : ∀ i, 1 ≤ i → i < k → d.oa_gf i = s.obias q v i
  a0 : d.oa_gf 0 = -s.grav
  Y : ∀ i, 1 ≤ i → i < k → d.oYaba i = s.oI q i
  f : ∀ i, 1 ≤ i → i < k → d.of i = p i
  u : d.u = t

theorem abaWorldFwd1_proj {q v : ℕ → K} {i : ℕ} (d : Data K) (hpi : s.par i ≠ i) (hq : (s.jt i).Ok (s.qs q i)) :
    (abaWorldFwd1 s q v i d).oMi = upd d.oMi i (if s.par i > 0 then d.oMi (s.par i) * s.X q i else s.X q i) ∧
    (abaWorldFwd1 s q v i d).J
      = putSeg d.J (s.iv i) (s.jnv i) (fun k => ((abaWorldFwd1 s q v i d).oMi i).act (s.S q i k)) ∧
    (abaWorldFwd1 s q v i d).ov = upd d.ov i
      (if s.par i > 0 then ((abaWorldFwd1 s q v i d).oMi i).act (s.jvel q v i) + d.ov (s.par i)
        else ((abaWorldFwd1 s q v i d).oMi i).act (s.jvel q v i)) ∧
    (abaWorldFwd1 s q v i d).oa_gf = upd d.oa_gf i
      (if s.par i > 0 then ((abaWorldFwd1 s q v i d).oMi i).act (s.cb q v i)
        + (d.ov (s.par i)).cross ((abaWorldFwd1 s q v i d).ov i)
        else ((abaWorldFwd1 s q v i d).oMi i).act (s.cb q v i)) ∧
    (abaWorldFwd1 s q v i d).oYaba = upd d.oYaba i ((s.Y i).act ((abaWorldFwd1 s q v i d).oMi i)).matrix ∧
    (abaWorldFwd1 s q v i d).of = upd d.of i (((abaWorldFwd1 s q v i d).ov i).crossF
      (((s.Y i).act ((abaWorldFwd1 s q v i d).oMi i)).mul ((abaWorldFwd1 s q v i d).ov i))) ∧
    (abaWorldFwd1 s q v i d).u = d.u := by
  have hvel : (s.jt i).v (s.qs q i) (s.vs v i) = s.jvel q v i := hq.vel _
  by_cases h : s.par i > 0
  · simp only [abaWorldFwd1, h, if_true, upd_self, upd_ne _ _ hpi, Joint.calcV, hvel, Function.update_idem]
    refine ⟨?_, ?_, ?_, ?_, ?_, ?_, ?_⟩ <;> first | trivial | rfl
  · simp only [abaWorldFwd1, h, if_false, upd_self, upd_ne _ _ hpi, Joint.calcV, hvel, Function.update_idem]
    refine ⟨?_, ?_, ?_, ?_, ?_, ?_, ?_⟩ <;> first | trivial | rfl

/-- the bias force of body `i` in the world frame -/
def Sys.obf (s : Sys K) (q v : ℕ → K) (e : ℕ → Force K) (i : ℕ) : Force K :=
  (s.oV q v i).crossF ((s.oI q i).mulMF (s.oV q v i)) - (s.oM q i).actF (e i)

theorem AW1.step (h : s.Packed) {q : ℕ → K} (hq : s.At q) {v t : ℕ → K} {p : ℕ → Force K}
    {i : ℕ} {d : Data K} (h1 : 1 ≤ i) (hi : i < s.n) (ih : AW1 s q v p t i d) {d' : Data K}
    (hd' : d' = { (abaWorldFwd1 s q v i d) with of := d'.of }) (hfo : ∀ j, j ≠ i → d'.of j = d.of j)
    (hfi : (abaWorldFwd1 s q v i d).of i = (s.oV q v i).crossF ((s.oI q i).mulMF (s.oV q v i)) →
      (abaWorldFwd1 s q v i d).oMi i = s.oM q i → d'.of i = p i) :
    AW1 s q v p t (i + 1) d' := by
  have hpi := h.par.2 i h1 hi
  have hne : s.par i ≠ i := by omega
  obtain ⟨e1, e2, e3, e4, e5, e6, e7⟩ := abaWorldFwd1_proj (v := v) d hne (hq.jt i h1 hi)
  have eo : (abaWorldFwd1 s q v i d).oMi i = s.oM q i := by
    rw [e1, upd_self]; exact oM_code h.par h1 hi ih.oM
  have ev : (abaWorldFwd1 s q v i d).ov i = s.oV q v i := by
    rw [e3, upd_self, eo, Sys.oV_step h.par hq v h1 hi]
    split
    · rw [ih.vel _ (by omega) hpi]
    · have : s.par i = 0 := by omega
      rw [this, Sys.oV_zero, add_zero]
  rw [hd']
  refine ⟨fun j hj1 hj => ?_, fun j hj1 hj l hl => ?_, fun j hj1 hj => ?_, fun j hj1 hj => ?_, ?_, fun j hj1 hj => ?_,
    fun j hj1 hj => ?_, ?_⟩
  · by_cases hji : j = i
    · subst hji; exact eo
    · simp only [e1, upd_ne _ _ hji]; exact ih.oM j hj1 (by omega)
  · simp only [e2]
    by_cases hji : j = i
    · subst hji; rw [putSeg_at _ _ hl, eo]; rfl
    · rw [h.putSeg_ne' _ _ h1 hi hj1 (by omega) hl hji]
      exact ih.J j hj1 (by omega) l hl
  · by_cases hji : j = i
    · subst hji; exact ev
    · simp only [e3, upd_ne _ _ hji]; exact ih.vel j hj1 (by omega)
  · by_cases hji : j = i
    · subst hji
      simp only [e4, upd_self, ev, eo]
      unfold Sys.obias
      split
      · rw [ih.vel _ (by omega) hpi]
      · have : s.par j = 0 := by omega
        rw [this, Sys.oV_zero, Motion.zero_cross, add_zero]
    · simp only [e4, upd_ne _ _ hji]; exact ih.a j hj1 (by omega)
  · simp only [e4]; rw [upd_ne _ _ (by omega)]; exact ih.a0
  · by_cases hji : j = i
    · subst hji; simp only [e5, upd_self, eo]; rfl
    · simp only [e5, upd_ne _ _ hji]; exact ih.Y j hj1 (by omega)
  · by_cases hji : j = i
    · subst hji
      refine hfi ?_ eo
      rw [e6, upd_self, ev, eo, Sys.oI, Inertia.matrix_mulMF]
    · change d'.of j = p j
      rw [hfo j hji]; exact ih.f j hj1 (by omega)
  · simp only [e7]; exact ih.u

theorem AW1.zero (q v : ℕ → K) (p : ℕ → Force K) (t : ℕ → K) {d : Data K} (h : d.oa_gf 0 = -s.grav) (hu : d.u = t) :
    AW1 s q v p t 1 d :=
  ⟨fun i h1 hi => by omega, fun i h1 hi => by omega, fun i h1 hi => by omega, fun i h1 hi => by omega, h,
    fun i h1 hi => by omega, fun i h1 hi => by omega, hu⟩

theorem abaWorld_aw1 (hp : s.Packed) {q : ℕ → K} (hq : s.At q) (v t : ℕ → K) {d : Data K}
    (h : d.oa_gf 0 = -s.grav) (hu : d.u = t) :
    AW1 s q v (s.obf q v (fun _ => 0)) t s.n (fwd (abaWorldFwd1 s q v) s.n d) := by
  apply fwd_ind (P := fun k (d : Data K) => AW1 s q v (s.obf q v (fun _ => 0)) t k d) hp.par.1
  · exact AW1.zero _ _ _ _ h hu
  · intro i d h1 hi ih
    have hne : s.par i ≠ i := by have := hp.par.2 i h1 hi; omega
    obtain ⟨-, -, -, -, -, e6, -⟩ := abaWorldFwd1_proj (v := v) d hne (hq.jt i h1 hi)
    refine ih.step hp hq h1 hi rfl (fun j hj => by rw [e6, upd_ne _ _ hj]) (fun e _ => ?_)
    rw [e]; unfold Sys.obf; rw [SE3.actF_zero]; abel

theorem abaWorldFext_aw1 (hp : s.Packed) {q : ℕ → K} (hq : s.At q) (v t : ℕ → K) (fext : ℕ → Force K) {d : Data K}
    (h : d.oa_gf 0 = -s.grav) (hu : d.u = t) :
    AW1 s q v (s.obf q v fext) t s.n (fwd (fun i d =>
      let d := abaWorldFwd1 s q v i d
      { d with of := upd d.of i (d.of i - (d.oMi i).actF (fext i)) }) s.n d) := by
  apply fwd_ind (P := fun k (d : Data K) => AW1 s q v (s.obf q v fext) t k d) hp.par.1
  · exact AW1.zero _ _ _ _ h hu
  · intro i d h1 hi ih
    have hne : s.par i ≠ i := by have := hp.par.2 i h1 hi; omega
    obtain ⟨-, -, -, -, -, e6, -⟩ := abaWorldFwd1_proj (v := v) d hne (hq.jt i h1 hi)
    refine ih.step hp hq h1 hi rfl (fun j hj => ?_) (fun e eo => ?_)
    · change upd (abaWorldFwd1 s q v i d).of i _ j = _
      rw [upd_ne _ _ hj, e6, upd_ne _ _ hj]
    · change upd (abaWorldFwd1 s q v i d).of i (_ - SE3.actF ((abaWorldFwd1 s q v i d).oMi i) _) i = _
      rw [upd_self, e, eo]; rfl

/-- the abstract recursion in the world frame; the joint columns are the ones stored in `J` -/
def worP (s : Sys K) (J : ℕ → Motion K) (q v : ℕ → K) : AbaP K where
  S i := seg J (s.iv i)
  Um _ := id
  Tf _ := id
  TM _ := id
  c := s.obias q v

/-- what the backward pass writes, world convention -/
def worπ (d : Data K) : AS K where
  Y := d.oYaba
  f := d.of
  u := d.u
  U i := (d.joints i).U
  StU i := (d.joints i).StU
  Dinv i := (d.joints i).Dinv
  UDinv i := (d.joints i).UDinv

theorem abaWorldBwd_proj {q v : ℕ → K} {i : ℕ} {d : Data K} (hpi : s.par i ≠ i) (ha : d.oa_gf i = s.obias q v i) :
    worπ (abaWorldBwd s i d) = absBwd s (worP s d.J q v) i (worπ d) := by
  by_cases h : s.par i > 0
  · apply AS.ext' <;>
    simp only [abaWorldBwd, absBwd, worπ, worP, h, if_true, upd_self, upd_ne _ _ hpi, ha, upd_comp, calcAba_U,
      calcAba_StU, calcAba_Dinv, calcAba_UDinv, calcAba_down, id]
  · apply AS.ext' <;>
    simp only [abaWorldBwd, absBwd, worπ, worP, h, if_false, upd_comp, calcAba_U,
      calcAba_StU, calcAba_Dinv, calcAba_UDinv]

theorem abaWorldBwd_keep (i : ℕ) (d : Data K) :
    (abaWorldBwd s i d).J = d.J ∧ (abaWorldBwd s i d).oa_gf = d.oa_gf ∧ (abaWorldBwd s i d).oMi = d.oMi := by
  unfold abaWorldBwd
  by_cases h : s.par i > 0
  · simp only [h, if_true]; exact ⟨trivial, trivial, trivial⟩
  · simp only [h, if_false]; exact ⟨trivial, trivial, trivial⟩

/-- the passes after the first one, world convention, without the last loop -/
def abaWorldRest (s : Sys K) (d : Data K) : Data K :=
  fwd (abaWorldFwd2 s) s.n (bwd (abaWorldBwd s) s.n d)

theorem abaWorldRest_ok (h : s.Packed) {q : ℕ → K} (hq : s.At q) {v t : ℕ → K} {p : ℕ → Force K} {d : Data K}
    (hd : AW1 s q v p t s.n d) :
    (∃ G, IsAcc s.par s.n (artT s (worP s d.J q v) t) (fun i => (s.oI q i, p i)) G ∧
      ∀ i, 1 ≤ i → i < s.n → ArtAt s (worP s d.J q v) t i (G i) (worπ (abaWorldRest s d)) ) ∧
    ((∀ i, 1 ≤ i → i < s.n → InvOk (s.jnv i) ((abaWorldRest s d).joints i).StU) →
      (∀ i, i < s.n → (abaWorldRest s d).oa_gf i
        = (s.oM q i).act (s.A (-s.grav) q v (abaWorldRest s d).ddq i)) ∧
      ∀ w, s.dotv w t = (∑ i ∈ Ico 1 s.n, (s.oV q w i).dot
          ((s.oI q i).mulMF ((s.oM q i).act (s.A (-s.grav) q v (abaWorldRest s d).ddq i)) + p i))
        + s.dotv w (fun r => s.arm r * (abaWorldRest s d).ddq r)) := by
  set d2 := bwd (abaWorldBwd s) s.n d with hd2
  set P := worP s d.J q v with hP
  -- backward pass
  obtain ⟨⟨k2, k3⟩, b2⟩ := bwd_proj (step := abaWorldBwd s) (step' := absBwd s P) (n := s.n) (d := d) worπ
    (fun e => e.J = d.J ∧ e.oa_gf = d.oa_gf)
    ⟨rfl, rfl⟩ (by
      rintro i e h1 hi ⟨b, c⟩
      obtain ⟨b', c1, -⟩ := abaWorldBwd_keep (s := s) i e
      refine ⟨⟨b'.trans b, c1.trans c⟩, ?_⟩
      have := h.par.2 i h1 hi
      rw [hP, ← b]
      exact abaWorldBwd_proj (by omega) (by rw [c]; exact hd.a i h1 hi))
  rw [← hd2] at k2 k3 b2
  obtain ⟨G, g1, g2⟩ := absBwd_ok (P := P) h (I0 := fun i => s.oI q i) (p := p) (t := t)
    (st := worπ d) hd.Y hd.f hd.u
  rw [← b2] at g2
  -- forward pass
  obtain ⟨⟨m1, m2, m3⟩, c2⟩ := fwd_proj (step := abaWorldFwd2 s) (step' := absFwd s P (worπ d2)) (n := s.n)
    (d := d2) (fun e => (e.oa_gf, e.ddq))
    (fun e => e.joints = d2.joints ∧ e.u = d2.u ∧ e.J = d2.J) ⟨rfl, rfl, rfl⟩ (by
      rintro i e h1 hi ⟨a, b, c⟩
      refine ⟨⟨a, b, c⟩, ?_⟩
      simp only [abaWorldFwd2, absFwd, worπ, hP, worP, a, b, c, k2, upd_self, Function.update_idem, id])
  have hrest : abaWorldRest s d = fwd (abaWorldFwd2 s) s.n d2 := rfl
  rw [hrest]
  set d3 := fwd (abaWorldFwd2 s) s.n d2 with hd3
  have hst : ∀ i, 1 ≤ i → i < s.n → ArtAt s P t i (G i) (worπ d3) := by
    intro i h1 hi
    have := g2 i h1 hi
    refine ⟨?_, ?_, ?_, ?_, ?_⟩
    · change (d3.joints i).U = _; rw [m1]; exact this.U
    · change (d3.joints i).StU = _; rw [m1]; exact this.StU
    · change (d3.joints i).Dinv = _; rw [m1]; exact this.Dinv
    · change (d3.joints i).UDinv = _; rw [m1]; exact this.UDinv
    · change ∀ l < _, d3.u _ = _; rw [m2]; exact this.u
  refine ⟨⟨G, g1, hst⟩, fun hD => ?_⟩
  obtain ⟨z, zz⟩ := absFwd_ok (P := P) h (worπ d2) (c := s.obias q v) (a0 := -s.grav) (a := d2.oa_gf) (q0 := d2.ddq)
    (by rw [k3]; exact hd.a0) (by intro i h1 hi; rw [k3]; exact hd.a i h1 hi)
  rw [← c2] at z zz
  have hcomb : ∀ x : ℕ → K, ∀ i, 1 ≤ i → i < s.n →
      comb (P.S i) (s.jnv i) (seg x (s.iv i)) = (s.oM q i).act (s.jvel q x i) := by
    intro x i h1 hi
    unfold Sys.jvel
    rw [act_comb]
    unfold comb
    apply sum_congr rfl
    intro l hl
    rw [mem_range] at hl
    change seg x (s.iv i) l • d.J (s.iv i + l) = _
    rw [hd.J i h1 hi l hl]; rfl
  have hacc : ∀ i, i < s.n → d3.oa_gf i = (s.oM q i).act (s.A (-s.grav) q v d3.ddq i) := by
    intro i hi; refine Sys.joint_ind s h.par ?_ ?_ i hi <;> clear hi i
    · rw [s.A_zero, s.oM_zero, SE3.one_act]; exact z
    · intro i h1 hi ih
      have hpi := h.par.2 i h1 hi
      have hv := s.oM_valid h.par hq i hi
      rw [s.A_step h1 hpi]
      refine (zz i h1 hi).1.trans ?_
      have e1 : comb (P.S i) (s.jnv i) (s.vs (d3.oa_gf, d3.ddq).2 i) = (s.oM q i).act (s.jvel q d3.ddq i) :=
        hcomb _ i h1 hi
      have e2 : P.Um i ((d3.oa_gf, d3.ddq).1 (s.par i)) = (s.oM q i).act ((s.X q i).actInv (s.A (-s.grav) q v d3.ddq (s.par i))) := by
        change d3.oa_gf (s.par i) = _
        have hXv := s.X_valid hq h1 hi
        rw [ih, s.oM_step h1 hpi, SE3.mul_act (s.oM_valid h.par hq _ (by omega)), SE3.act_actInv hXv]
      have e3 : s.obias q v i = (s.oM q i).act (s.cb q v i + (s.V q v i).cross (s.jvel q v i)) := by
        unfold Sys.obias
        rw [SE3.act_add, Motion.act_cross hv]
        congr 1
        have e4 : (s.oM q i).act (s.jvel q v i) = s.oV q v i - s.oV q v (s.par i) := by
          rw [Sys.oV_step h.par hq v h1 hi]; abel
        rw [e4]
        change _ = (s.oV q v i).cross _
        ext <;> simp [Motion.cross, V3.cross] <;> ring
      rw [e1, e2, e3, ← SE3.act_add, ← SE3.act_add]
      congr 1; abel
  refine ⟨hacc, fun w => ?_⟩
  have := aba_core (P := P) h g1 (fun i _ _ => s.oI_symm q i) (fun i A hA => hA)
    (fun i A hA v => rfl) (fun i v f => rfl) (fun i f g => rfl)
    hst hD (a := d3.oa_gf) (x := d3.ddq) (by
      intro i h1 hi
      have := zz i h1 hi
      have e : (worπ d3).Dinv = (worπ d2).Dinv ∧ (worπ d3).UDinv = (worπ d2).UDinv ∧ (worπ d3).u = (worπ d2).u := by
        refine ⟨?_, ?_, m2⟩
        · change (fun i => (d3.joints i).Dinv) = _; rw [m1]; rfl
        · change (fun i => (d3.joints i).UDinv) = _; rw [m1]; rfl
      rw [e.1, e.2.1, e.2.2]
      exact this) (w := w) (V := s.oV q w) (s.oV_zero q w) (fun i h1 hi => by
        rw [Sys.oV_step h.par hq w h1 hi, ← hcomb w i h1 hi]; rfl)
  rw [this]
  congr 1
  apply sum_congr rfl
  intro i hi
  rw [mem_Ico] at hi
  rw [hacc i hi.2]

end Pin
