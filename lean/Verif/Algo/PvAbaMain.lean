import Verif.Algo.PvAbaLemmas

/-!
# The equations that `constrainedABA` solves
-/

namespace Pin
open Finset
set_option linter.unusedSectionVars false
variable {K : Type*} [Field K] {s : Sys K} {q v tau : ℕ → K} {ms : ℕ → RCM K} {nc : ℕ}

/-- what the passes after the backward pass leave as it is -/
structure CabaSame (x y : PvData K) : Prop where
  bias : y.bias = x.bias
  dim : y.dim = x.dim
  pind : y.pind = x.pind
  KA : y.KA = x.KA
  lA : y.lA = x.lA
  LA : y.LA = x.LA
  joints : y.data.joints = x.data.joints
  liMi : y.data.liMi = x.data.liMi

theorem CabaSame.refl (x : PvData K) : CabaSame x x := ⟨rfl, rfl, rfl, rfl, rfl, rfl, rfl, rfl⟩

theorem CabaSame.trans {x y z : PvData K} (a : CabaSame x y) (b : CabaSame y z) : CabaSame x z :=
  ⟨b.bias.trans a.bias, b.dim.trans a.dim, b.pind.trans a.pind, b.KA.trans a.KA, b.lA.trans a.lA, b.LA.trans a.LA,
    b.joints.trans a.joints, b.liMi.trans a.liMi⟩

/-- the accelerations of the joints that support a contact, or of the others -/
def SupAt (s : Sys K) (sup : Bool) (B z : PvData K) : Prop :=
  ∀ i, 1 ≤ i → i < s.n → decide (B.dim i > 0) = sup →
    z.data.a i = B.bias i + (B.data.liMi i).actInv (z.data.a (s.par i))
      + comb (B.data.joints i).S (s.jnv i) (s.vs z.data.ddq i) ∧
    ∀ l < s.jnv i, z.data.ddq (s.iv i + l)
      = (∑ m ∈ range (s.jnv i), (B.data.joints i).Dinv l m * z.data.u (s.iv i + m))
      - (B.bias i + (B.data.liMi i).actInv (z.data.a (s.par i))).dot ((B.data.joints i).UDinv l)

/-- the state with the multipliers `lam` added, `B` the state after the backward pass -/
structure CabaInv (s : Sys K) (q v tau : ℕ → K) (ms : ℕ → RCM K) (nc : ℕ) (I0 A : ℕ → M6 K) (p : ℕ → Force K) (B z : PvData K)
    (lam : ℕ → K) : Prop where
  same : CabaSame B z
  lam0 : ∀ r, z.lamA 0 r = B.lamA 0 r + lam r
  a0 : z.data.a 0 = B.data.a 0
  acc : ∃ g : ℕ → Force K, IsAcc s.par s.n (artT s (locP s q v) tau) (fun i => (I0 i, p i + conLoad ms nc B.KA lam i))
      (fun i => (A i, g i)) ∧
    ∀ i, 1 ≤ i → i < s.n → ∀ l < s.jnv i, z.data.u (s.iv i + l) = tau (s.iv i + l) - (s.S q i l).dot (g i)

/-- the residuals in `lambda_c_prox` -/
def ProxAt (ms : ℕ → RCM K) (nc : ℕ) (B z : PvData K) : Prop :=
  ∀ k < nc, ∀ r < (ms k).type.dim, z.prox (conRow ms k + r)
    = B.lA (ms k).j1 (pvOwn ms k (ms k).j1 + r) + (z.data.a (ms k).j1).dot (B.KA (ms k).j1 (pvOwn ms k (ms k).j1 + r))

variable {I0 A : ℕ → M6 K} {p : ℕ → Force K} {B : PvData K}

theorem cabaTurn_ok (h : s.Packed) (hj : ∀ k < nc, 1 ≤ (ms k).j1 ∧ (ms k).j1 < s.n)
    (hsl : Slots s.par s.n (pvOwn ms nc) B.dim B.pind)
    (hli : ∀ i, 1 ≤ i → i < s.n → B.data.liMi i = s.X q i ∧ (B.data.joints i).S = s.S q i)
    (hU : ∀ i, 1 ≤ i → i < s.n → (B.data.joints i).UDinv = udCol (s.jnv i) (s.S q i) (seg s.arm (s.iv i)) (A i))
    (mu : K) {z : PvData K} {lam : ℕ → K} (hI : CabaInv s q v tau ms nc I0 A p B z lam) :
    let y := cabaTurn s mu ms nc z
    CabaInv s q v tau ms nc I0 A p B y (fun r => lam r + 1 / mu * z.prox r) ∧ SupAt s true B y ∧ ProxAt ms nc B y := by
  unfold cabaTurn
  dsimp only
  set z1 : PvData K := { z with lamA := upd z.lamA 0 (fun r => z.lamA 0 r + 1 / mu * z.prox r) } with hz1
  have S1 : CabaSame z z1 := ⟨rfl, rfl, rfl, rfl, rfl, rfl, rfl, rfl⟩
  have p1 : z1.prox = z.prox := rfl
  have l1 : z1.lamA 0 = fun r => z.lamA 0 r + 1 / mu * z.prox r := by rw [hz1]; dsimp only; rw [upd_self]
  have u1 : z1.data = z.data := rfl
  clear_value z1
  obtain ⟨c1, c2⟩ := cabaClear_ok h z1
  set z2 := fwd cabaClear s.n z1
  have S2 : CabaSame z1 z2 := by constructor <;> rw [c1]
  have p2 : z2.prox = z1.prox := by rw [c1]
  have l2 : z2.lamA = z1.lamA := by rw [c1]
  have a2 : z2.data.a = z1.data.a := by rw [c1]
  have u2 : z2.data.u = z1.data.u := by rw [c1]
  clear_value z2
  obtain ⟨d1, d2⟩ := cabaLoad_ok (ms := ms) mu z2 nc
  set z3 := upTo (cabaLoad mu ms) nc z2
  have S3 : CabaSame z2 z3 := by constructor <;> rw [d1]
  have l3 : z3.lamA = z2.lamA := by rw [d1]
  have a3 : z3.data.a = z2.data.a := by rw [d1]
  have u3 : z3.data.u = z2.data.u := by rw [d1]
  clear_value z3
  have T3 := ((hI.same.trans S1).trans S2).trans S3
  have hsup : ∀ i, 1 ≤ i → i < s.n → 0 < z3.dim i → 0 < z3.dim (s.par i) := by
    intro i h1 hi hd
    rw [T3.dim] at hd ⊢
    have := hsl.hi i h1 hi
    omega
  obtain ⟨r1, e, r2, r3⟩ := cabaRed_ok (q := q) h hsup (by
    intro i h1 hi
    rw [T3.liMi, T3.joints]; exact hli i h1 hi)
  set z4 := bwd (cabaRed s) s.n z3
  have S4 : CabaSame z3 z4 := by constructor <;> rw [r1]
  have l4 : z4.lamA = z3.lamA := by rw [r1]
  have a4 : z4.data.a = z3.data.a := by rw [r1]
  clear_value z4
  have T4 := T3.trans S4
  have hE := cabaFwd_ok h true z4
  set z5 := fwd (cabaFwd s true) s.n z4
  have S5 : CabaSame z4 z5 := by constructor <;> rw [hE.keep]
  have l5 : z5.lamA = z4.lamA := by rw [hE.keep]
  have u5 : z5.data.u = z4.data.u := by rw [hE.keep]
  clear_value z5
  have T5 := T4.trans S5
  obtain ⟨g1, g2⟩ := cabaProx_ok (ms := ms) z5 nc
  set z6 := upTo (cabaProx ms) nc z5
  have S6 : CabaSame z5 z6 := by constructor <;> rw [g1]
  have l6 : z6.lamA = z5.lamA := by rw [g1]
  have d6 : z6.data = z5.data := by rw [g1]
  clear_value z6
  have hδ : ∀ i, 1 ≤ i → i < s.n → (if 0 < z3.dim i then z3.data.f i else 0)
      = conLoad ms nc B.KA (fun r => 1 / mu * z.prox r) i := by
    intro i h1 hi
    have eK : z2.KA = B.KA := ((hI.same.trans S1).trans S2).KA
    split
    · rename_i hd
      rw [d2, c2 i h1 hi (by rw [← S2.dim, ← S3.dim]; exact hd), zero_add, eK, p2, p1]
    · rename_i hd
      rw [T3.dim] at hd
      symm
      unfold conLoad
      refine sum_eq_zero fun k hk => ?_
      rw [if_neg]
      rintro rfl
      have := pvOwn_room ms (mem_range.1 hk)
      have := hsl.own_le _ hi
      have : 0 < (ms k).type.dim := by cases (ms k).type <;> simp [CType.dim]
      omega
  refine ⟨⟨T5.trans S6, fun r => ?_, ?_, ?_⟩, fun i h1 hi hd => ?_, fun k hk r hr => ?_⟩
  · rw [l6, l5, l4, l3, l2, l1]
    dsimp only
    rw [hI.lam0]; ring
  · rw [d6, hE.a0, a4, a3, a2, u1]; exact hI.a0
  · obtain ⟨g, k1, k2⟩ := hI.acc
    have key := artT_load k1 r2 (by intro i h1 hi; rw [T3.joints]; exact hU i h1 hi)
    refine ⟨fun i => g i + e i, fun i h1 hi => ?_, fun i h1 hi l hl => ?_⟩
    · have := key i h1 hi
      dsimp only at this ⊢
      rw [this, hδ i h1 hi, conLoad_add, add_assoc]
    · rw [d6, u5, r3 i h1 hi l hl, u3, u2, u1, k2 i h1 hi l hl, Motion.dot_add]
      ring
  · have := hE.acc i h1 hi (by rw [T4.dim]; exact hd)
    rw [d6]
    rw [T4.bias, T4.joints, T4.liMi] at this
    rw [u5]
    exact this
  · rw [g2 k hk r hr, d6, T5.lA, T5.KA]

theorem dot_pen (V : Motion K) (n : K) (m : ℕ) (f : ℕ → K) (k : ℕ → Force K) :
    V.dot (n • ∑ c ∈ range m, f c • k c) = n * ∑ c ∈ range m, f c * V.dot (k c) := by
  rw [Motion.dot_smul, ← dotHom_apply, map_sum]
  congr 1
  exact sum_congr rfl fun c _ => by rw [dotHom_apply, Motion.dot_smul]

section order
variable [LinearOrder K]

theorem cabaLoop_ok (h : s.Packed) (hj : ∀ k < nc, 1 ≤ (ms k).j1 ∧ (ms k).j1 < s.n)
    (hsl : Slots s.par s.n (pvOwn ms nc) B.dim B.pind)
    (hli : ∀ i, 1 ≤ i → i < s.n → B.data.liMi i = s.X q i ∧ (B.data.joints i).S = s.S q i)
    (hU : ∀ i, 1 ≤ i → i < s.n → (B.data.joints i).UDinv = udCol (s.jnv i) (s.S q i) (seg s.arm (s.iv i)) (A i))
    (st : ProxSet K) : ∀ (n : ℕ) {z : PvData K} {lam : ℕ → K}, CabaInv s q v tau ms nc I0 A p B z lam → SupAt s true B z →
    let y := cabaLoop s st ms nc n z
    (∃ lam', CabaInv s q v tau ms nc I0 A p B y lam') ∧ SupAt s true B y ∧
      (1 ≤ n → ProxAt ms nc B y ∧ y.absRes = infNorm (B.dim 0) y.prox) := by
  intro n
  induction n with
  | zero => intro z lam hI hS; exact ⟨⟨lam, hI⟩, hS, fun e => by omega⟩
  | succ n ih =>
    intro z lam hI hS
    obtain ⟨t1, t2, t3⟩ := cabaTurn_ok h hj hsl hli hU st.mu hI
    set y := cabaTurn s st.mu ms nc z with hy
    set y' : PvData K := { y with absRes := infNorm (y.dim 0) y.prox } with hy'
    have t1' : CabaInv s q v tau ms nc I0 A p B y' _ := ⟨⟨t1.same.bias, t1.same.dim, t1.same.pind, t1.same.KA, t1.same.lA,
      t1.same.LA, t1.same.joints, t1.same.liMi⟩, t1.lam0, t1.a0, t1.acc⟩
    have t2' : SupAt s true B y' := t2
    have t3' : ProxAt ms nc B y' ∧ y'.absRes = infNorm (B.dim 0) y'.prox := ⟨t3, by rw [hy', ← t1.same.dim]⟩
    have e : cabaLoop s st ms nc (n + 1) z = if y'.absRes ≤ st.absAcc then y' else cabaLoop s st ms nc n y' := rfl
    rw [e]
    split
    · exact ⟨⟨_, t1'⟩, t2', fun _ => t3'⟩
    · cases n with
      | zero => exact ⟨⟨_, t1'⟩, t2', fun _ => t3'⟩
      | succ n =>
        obtain ⟨i1, i2, i3⟩ := ih t1' t2'
        exact ⟨i1, i2, fun _ => i3 (by omega)⟩

/-- what a call needs from the last one -/
structure CabaReady (s : Sys K) (ms : ℕ → RCM K) (nc : ℕ) (x : PvData K) : Prop where
  pv : PvReady s ms nc x
  child : ∀ i c, pvOwn ms nc i ≤ c → x.KA i c = 0

theorem initPvSolver_child (x : PvData K) : ∀ i c, pvOwn ms nc i ≤ c → (initPvSolver s x ms nc).KA i c = 0 := by
  have key := upTo_ind (step := pvPut ms) (n := nc) (d := ((fun _ _ => (0 : Force K)), fun _ => 0))
    (fun n (y : (ℕ → ℕ → Force K) × (ℕ → ℕ)) => y.2 = pvOwn ms n ∧ ∀ i c, pvOwn ms n i ≤ c → y.1 i c = 0)
    ⟨rfl, fun _ _ _ => rfl⟩ (by
      rintro n ⟨y1, y2⟩ hn ⟨e, hc⟩
      dsimp only at e hc
      subst e
      refine ⟨(pvOwn_succ ms n).symm, fun i c hic => ?_⟩
      rw [pvOwn_succ] at hic
      change upd y1 (ms n).j1 _ i c = 0
      by_cases hi : i = (ms n).j1
      · subst hi
        rw [upd_self] at hic ⊢
        dsimp only
        unfold putSeg
        rw [if_neg (by omega)]
        exact hc _ c (by omega)
      · rw [upd_ne _ _ hi] at hic ⊢
        exact hc i c hic)
  exact key.2

theorem pvSetup_keep (h : s.Packed) {lg : SE3 K → Motion K} (x : PvData K) (ks : ℕ → Corr K) (cd : ℕ → PvCon K) :
    let y := pvSetup lg s x q v tau ms ks nc cd
    y.1.KA = x.KA ∧ y.1.dim = x.dim ∧ y.1.pind = x.pind ∧ y.1.lamA = x.lamA := by
  unfold pvSetup
  set bp := decide (∃ k < nc, ¬ ∀ i < (ms k).type.dim, (ks k).Kp i = 0)
  dsimp only
  set x1 : PvData K := { x with data := { x.data with
    v := upd x.data.v 0 0
    a_gf := upd x.data.a_gf 0 (-s.grav)
    a := upd x.data.a 0 (upd x.data.a_gf 0 (-s.grav) 0)
    f := upd x.data.f 0 0
    u := tau } } with hx1
  obtain ⟨z1, -, -⟩ := pvZero_ok (ms := ms) x1 nc
  set x2 := upTo (pvZero ms) nc x1 with hx2
  clear_value x2
  have k2 : x2.KA = x.KA ∧ x2.dim = x.dim ∧ x2.pind = x.pind ∧ x2.lamA = x.lamA := by
    rw [z1]; exact ⟨rfl, rfl, rfl, rfl⟩
  exact fwd_ind (step := pvFwd1 s bp q v) (n := s.n) (d := x2)
    (P := fun _ z => z.KA = x.KA ∧ z.dim = x.dim ∧ z.pind = x.pind ∧ z.lamA = x.lamA) h.par.1 k2 fun i z _ _ hz => hz

theorem cabaBwd_data (i : ℕ) (x : PvData K) : (cabaBwd s i x).data = (pvBwd s i x).data := by
  unfold cabaBwd pvBwd
  by_cases h : s.par i > 0
  · by_cases hd : x.dim i > 0 <;> simp only [h, hd, if_true, if_false]
  · by_cases hd : x.dim i > 0 <;> simp only [h, hd, if_true, if_false]

theorem cabaBwd_ok (h : s.Packed) {P0 : PvData K}
    (hli : ∀ i, 1 ≤ i → i < s.n → P0.data.liMi i = s.X q i ∧ (P0.data.joints i).S = s.S q i)
    (hb : ∀ i, 1 ≤ i → i < s.n → P0.bias i = s.bias q v i) (hu : P0.data.u = tau) :
    let B := bwd (cabaBwd s) s.n P0
    (B.data.liMi = P0.data.liMi ∧ (∀ j, (B.data.joints j).S = (P0.data.joints j).S) ∧ B.data.a = P0.data.a ∧
      B = { P0 with data := B.data }) ∧
    ∃ G : ℕ → M6 K × Force K, IsAcc s.par s.n (artT s (locP s q v) tau) (fun i => (P0.data.Yaba i, P0.data.f i)) G ∧
      ∀ i, 1 ≤ i → i < s.n → ArtAt s (locP s q v) tau i (G i) (locπ B.data) := by
  obtain ⟨⟨k1, k2, k3, k4⟩, b2⟩ := bwd_proj (step := cabaBwd s) (step' := absBwd s (locP s q v)) (n := s.n) (d := P0)
    (fun x => locπ x.data)
    (fun e => e.data.liMi = P0.data.liMi ∧ (∀ j, (e.data.joints j).S = (P0.data.joints j).S) ∧ e.data.a = P0.data.a ∧
      e = { P0 with data := e.data })
    ⟨rfl, fun _ => rfl, rfl, rfl⟩ (by
      rintro i e h1 hi ⟨a, b, c, d⟩
      have hk := pvBwd_keep (s := s) i e
      have hbias : e.bias = P0.bias := by rw [d]
      rw [← cabaBwd_data] at hk
      obtain ⟨a', b', -, -, -, c', -⟩ := hk
      refine ⟨⟨a'.trans a, fun j => (b' j).trans (b j), c'.trans c, ?_⟩, ?_⟩
      · obtain ⟨D, hD⟩ : ∃ D, cabaBwd s i e = { e with data := D } := ⟨_, rfl⟩
        rw [hD]
        conv_lhs => rw [d]
      · have := h.par.2 i h1 hi
        rw [cabaBwd_data]
        exact pvBwd_proj (by omega) (by rw [a]; exact (hli i h1 hi).1) (by rw [b]; exact (hli i h1 hi).2)
          (by rw [hbias]; exact hb i h1 hi))
  obtain ⟨G, g1, g2⟩ := absBwd_ok (P := locP s q v) h (I0 := P0.data.Yaba) (p := P0.data.f) (t := tau)
    (st := locπ P0.data) (fun _ _ _ => rfl) (fun _ _ _ => rfl) hu
  rw [← b2] at g2
  exact ⟨⟨k1, k2, k3, k4⟩, G, g1, g2⟩

variable [IsStrictOrderedRing K] [HasEps K]

/-- the equations of one call -/
theorem caba_core (h : s.Packed) (hf : PvFit s ms nc) (hq : s.At q) (hy : s.Heavy q) (hg : s.grav.ang = 0)
    {lg : SE3 K → Motion K} {x : PvData K} (hr : CabaReady s ms nc x) (ks : ℕ → Corr K) (cd : ℕ → PvCon K) {st : ProxSet K}
    (hmu : 0 < st.mu) (d d' : Data K) :
    let y := constrainedABA lg s x q v tau ms ks nc cd st
    let res := fun k r => ((ms k).accIn (forwardKinematicsA s d' q v y.1.data.ddq)).row r - (y.2 k).aerr.row r
    (∀ w, s.dotv w (rnea s d q v y.1.data.ddq).tau = s.dotv w tau - s.conPower q ms nc (fun k r =>
      cabaForce ms y.1 k r - cabaForce ms x k r + conCount ms nc (ms k).j1 / st.mu * res k r) w) ∧
    (2 ≤ st.maxIter → ∀ k < nc, ∀ r < (ms k).type.dim, |res k r| ≤ y.1.absRes) ∧
    (∀ k < nc, (y.2 k).aerr = (pvFeedback lg (ms k) (ks k) (cd k)).aerr) ∧
    (2 ≤ st.maxIter → (∀ k < nc, ∀ r < (ms k).type.dim, y.1.prox (conRow ms k + r) = res k r) ∧
      y.1.absRes = infNorm (conRow ms nc) y.1.prox) := by
  obtain ⟨a1, a2, a3, a4⟩ := pvSetup_ok (lg := lg) h hr.pv hq v tau ks cd
  obtain ⟨k1, k2, k3, k4⟩ := pvSetup_keep (q := q) (v := v) (tau := tau) (ms := ms) (nc := nc) (lg := lg) h x ks cd
  unfold constrainedABA cabaSetup
  set Y := pvSetup lg s x q v tau ms ks nc cd with hY
  clear_value Y
  dsimp only
  set S1 : PvData K := { Y.1 with LA := x.LA } with hS1
  have s1 : S1.data = Y.1.data ∧ S1.bias = Y.1.bias ∧ S1.dim = x.dim ∧ S1.pind = x.pind ∧ S1.KA = x.KA ∧ S1.lA = Y.1.lA ∧
    S1.LA = x.LA ∧ S1.lamA = x.lamA := ⟨rfl, rfl, k2, k3, k1, rfl, rfl, k4⟩
  clear_value S1
  obtain ⟨s1, s2, s3, s4, s5, s6, s7, s8⟩ := s1
  obtain ⟨p1, p2⟩ := cabaPen_ok (ms := ms) st.mu S1 nc
  rw [s3, s5, s6, s1] at p2
  set P0 := upTo (cabaPen st.mu ms) nc S1 with hP0
  have q0 : P0.data.liMi = Y.1.data.liMi ∧ P0.data.joints = Y.1.data.joints ∧ P0.data.a = Y.1.data.a ∧
      P0.data.u = Y.1.data.u ∧ P0.bias = Y.1.bias ∧ P0.dim = x.dim ∧ P0.pind = x.pind ∧ P0.KA = x.KA ∧ P0.lA = Y.1.lA ∧
      P0.LA = x.LA ∧ P0.lamA = x.lamA := by
    rw [p1]
    dsimp only
    rw [s1]
    exact ⟨rfl, rfl, rfl, rfl, s2, s3, s4, s5, s6, s7, s8⟩
  clear_value P0
  obtain ⟨q1, q2, q3, q4, q5, q6, q7, q8, q9, q10, q11⟩ := q0
  obtain ⟨o, al⟩ := a2.al
  have hYm : ∀ i, 1 ≤ i → i < s.n → Y.1.data.Yaba i = (s.Y i).matrix := al.Y
  have hYf : ∀ i, 1 ≤ i → i < s.n → Y.1.data.f i = s.bf q v (fun _ => 0) i := al.f
  have hli0 : ∀ i, 1 ≤ i → i < s.n → Y.1.data.liMi i = s.X q i ∧ (Y.1.data.joints i).S = s.S q i := al.li
  have hYu : Y.1.data.u = tau := al.u
  have hb0 : ∀ i, 1 ≤ i → i < s.n → Y.1.bias i = s.bias q v i := fun i h1 hi => by
    have := al.a i h1 hi
    change upd Y.1.bias 0 (-s.grav) i = _ at this
    rwa [upd_ne _ _ (by omega)] at this
  obtain ⟨⟨b1, b2, b3, b4⟩, G, g1, g2⟩ := cabaBwd_ok (q := q) (v := v) (tau := tau) h (P0 := P0)
    (fun i h1 hi => by rw [q1, q2]; exact hli0 i h1 hi) (fun i h1 hi => by rw [q5]; exact hb0 i h1 hi) (q4.trans hYu)
  set B := bwd (cabaBwd s) s.n P0 with hB
  have c0 : B.bias = Y.1.bias ∧ B.dim = x.dim ∧ B.pind = x.pind ∧ B.KA = x.KA ∧ B.lA = Y.1.lA ∧ B.LA = x.LA ∧ B.lamA = x.lamA := by
    rw [b4]; exact ⟨q5, q6, q7, q8, q9, q10, q11⟩
  clear_value B
  obtain ⟨c1, c2, c3, c4, c5, c6, c7⟩ := c0
  set A : ℕ → M6 K := fun i => (G i).1 with hA
  have hj : ∀ k < nc, 1 ≤ (ms k).j1 ∧ (ms k).j1 < s.n := fun k hk => ⟨(hf k hk).2.1, (hf k hk).2.2.1⟩
  have hj' : ∀ k < nc, (ms k).j1 < s.n := fun k hk => (hj k hk).2
  have hown0 : pvOwn ms nc 0 = 0 := pvOwn_zero fun k hk => (hj k hk).1
  have hsl : Slots s.par s.n (pvOwn ms nc) B.dim B.pind := by rw [c2, c3]; exact hr.pv.slots
  have hli : ∀ i, 1 ≤ i → i < s.n → B.data.liMi i = s.X q i ∧ (B.data.joints i).S = s.S q i := by
    intro i h1 hi
    rw [b1, b2, q1, q2]; exact hli0 i h1 hi
  have hU : ∀ i, 1 ≤ i → i < s.n → (B.data.joints i).UDinv = udCol (s.jnv i) (s.S q i) (seg s.arm (s.iv i)) (A i) :=
    fun i h1 hi => (g2 i h1 hi).UDinv
  -- the passes
  obtain ⟨f1, -⟩ := cabaProx_ok (ms := ms) B nc
  set z0 := upTo (cabaProx ms) nc B
  have S0 : CabaSame B z0 := by constructor <;> rw [f1]
  have d0 : z0.data = B.data := by rw [f1]
  have l0 : z0.lamA = B.lamA := by rw [f1]
  clear_value z0
  have hE1 := cabaFwd_ok h true z0
  set z1 := fwd (cabaFwd s true) s.n z0
  have S1' : CabaSame z0 z1 := by constructor <;> rw [hE1.keep]
  have l1 : z1.lamA = z0.lamA := by rw [hE1.keep]
  have u1 : z1.data.u = z0.data.u := by rw [hE1.keep]
  clear_value z1
  have hI1 : CabaInv s q v tau ms nc P0.data.Yaba A P0.data.f B z1 (fun _ => 0) := by
    refine ⟨S0.trans S1', fun r => by rw [l1, l0, add_zero], by rw [hE1.a0, d0], fun i => (G i).2, fun i h1 hi => ?_,
      fun i h1 hi l hl => ?_⟩
    · dsimp only; rw [conLoad_zero, add_zero]; exact g1 i h1 hi
    · rw [u1, d0]; exact (g2 i h1 hi).u l hl
  have hU1 : SupAt s true B z1 := by
    intro i h1 hi hd
    have := hE1.acc i h1 hi (by rw [S0.dim]; exact hd)
    rw [S0.bias, S0.joints, S0.liMi] at this
    rw [u1]; exact this
  obtain ⟨⟨lam, hI2⟩, hU2, hP2⟩ := cabaLoop_ok h hj hsl hli hU st (st.maxIter - 1) hI1 hU1
  set z2 := cabaLoop s st ms nc (st.maxIter - 1) z1
  clear_value z2
  have hE := cabaFwd_ok h false z2
  set E := fwd (cabaFwd s false) s.n z2 with hEd
  have S3 : CabaSame z2 E := by constructor <;> rw [hE.keep]
  have l3 : E.lamA = z2.lamA := by rw [hE.keep]
  have u3 : E.data.u = z2.data.u := by rw [hE.keep]
  have r3 : E.absRes = z2.absRes := by rw [hE.keep]
  have x3 : E.prox = z2.prox := by rw [hE.keep]
  clear_value E
  have ha0 : E.data.a 0 = -s.grav := by rw [hE.a0, hI2.a0, b3, q3]; exact a2.a0
  have hparE : ∀ i, 1 ≤ i → i < s.n → 0 < B.dim i → E.data.a (s.par i) = z2.data.a (s.par i) := by
    intro i h1 hi hd
    have hpi := h.par.2 i h1 hi
    by_cases hp0 : s.par i = 0
    · rw [hp0]; exact hE.a0
    · refine (hE.oth (s.par i) (by omega) (by omega) ?_).1
      have := hsl.hi i h1 hi
      rw [hI2.same.dim]
      simp; omega
  have ha : ∀ i, 1 ≤ i → i < s.n →
      E.data.a i = s.bias q v i + (s.X q i).actInv (E.data.a (s.par i)) + comb (s.S q i) (s.jnv i) (s.vs E.data.ddq i) ∧
      ∀ l < s.jnv i, E.data.ddq (s.iv i + l) = (∑ m ∈ range (s.jnv i), (B.data.joints i).Dinv l m * E.data.u (s.iv i + m))
        - (s.bias q v i + (s.X q i).actInv (E.data.a (s.par i))).dot ((B.data.joints i).UDinv l) := by
    intro i h1 hi
    rw [← (hli i h1 hi).1, ← (hli i h1 hi).2, ← hb0 i h1 hi, ← c1]
    by_cases hd : 0 < B.dim i
    · obtain ⟨e1, e2⟩ := hU2 i h1 hi (by simpa using hd)
      obtain ⟨e3, e4⟩ := hE.oth i h1 hi (by rw [hI2.same.dim]; simpa using hd.ne')
      rw [hparE i h1 hi hd, e3, u3]
      refine ⟨?_, fun l hl => ?_⟩
      · rw [e1]
        congr 1
        exact comb_congr (fun _ _ => rfl) (fun k hk => (e4 k hk).symm)
      · rw [e4 l hl, e2 l hl]
    · obtain ⟨e1, e2⟩ := hE.acc i h1 hi (by rw [hI2.same.dim]; simpa using hd)
      rw [hI2.same.bias, hI2.same.joints, hI2.same.liMi] at e1 e2
      rw [u3]
      exact ⟨e1, e2⟩
  have hEA : ∀ i, i < s.n → E.data.a i = s.A (-s.grav) q v E.data.ddq i := by
    intro i hi; refine Sys.joint_ind s h.par ?_ ?_ i hi <;> clear hi i
    · rw [s.A_zero]; exact ha0
    · intro i h1 hi ih
      rw [s.A_step h1 (h.par.2 i h1 hi), ← ih]
      refine (ha i h1 hi).1.trans ?_
      change s.cb q v i + (s.V q v i).cross (s.jvel q v i) + (s.X q i).actInv _ + s.jvel q E.data.ddq i = _
      abel
  -- the residuals
  have hres : ∀ k < nc, ∀ r < (ms k).type.dim,
      Y.1.lA (ms k).j1 (pvOwn ms k (ms k).j1 + r) + (E.data.a (ms k).j1).dot (x.KA (ms k).j1 (pvOwn ms k (ms k).j1 + r))
      = ((ms k).accIn (forwardKinematicsA s d' q v E.data.ddq)).row r - (Y.2 k).aerr.row r := by
    intro k hk r hr'
    rw [a4 k hk, ← pv_row (lg := lg) (ks := ks) (cd := cd) h hq hg a2 (hj k hk).1 (hj k hk).2 hr' (a1.KA k hk r hr')
      E.data.ddq d', a3 k hk r hr', hr.pv.KA k hk r hr', hEA _ (hj k hk).2]
    ring
  -- symmetric and definite
  have hI0 : ∀ i, 1 ≤ i → i < s.n → (P0.data.Yaba i).IsSymm := by
    intro i h1 hi
    rw [M6.isSymm_iff]
    intro a b
    have e := (s.Y i).matrix_symm
    rw [M6.isSymm_iff] at e
    rw [(p2 i).1, (p2 i).1, hYm i h1 hi, Motion.dot_add, Motion.dot_add, e a b]
    congr 1
    rw [dot_pen, dot_pen]
    congr 1
    exact sum_congr rfl fun c _ => by ring
  have hdef : ∀ (w : ℕ → K) (V : ℕ → Motion K), V 0 = 0 →
      (∀ i, 1 ≤ i → i < s.n → V i = comb (s.S q i) (s.jnv i) (s.vs w i) + (s.X q i).actInv (V (s.par i))) →
      (∑ j ∈ Ico 1 s.n, (V j).dot ((P0.data.Yaba j).mulMF (V j))) + s.dotv w (fun r => s.arm r * w r) = 0 →
      ∀ r < s.nv, w r = 0 := by
    intro w V V0 hV e r hr'
    by_contra hne
    have hpos := Sys.massForm_pos h hy.body hy.cols hy.arm w ⟨r, hr', hne⟩
    have hVV : ∀ i, i < s.n → V i = s.V q w i := by
      intro i hi; refine Sys.joint_ind s h.par ?_ ?_ i hi <;> clear hi i
      · rw [V0, s.V_zero]
      · intro i h1 hi ih
        rw [hV i h1 hi, ih, s.V_step h1 (h.par.2 i h1 hi)]; rfl
    have hle : s.massForm q w w ≤ (∑ j ∈ Ico 1 s.n, (V j).dot ((P0.data.Yaba j).mulMF (V j)))
        + s.dotv w (fun r => s.arm r * w r) := by
      unfold Sys.massForm
      gcongr with i hi
      rw [mem_Ico] at hi
      rw [(p2 i).1, hYm i hi.1 hi.2, Motion.dot_add, dot_pen, hVV i hi.2, Inertia.matrix_mulMF]
      refine le_add_of_nonneg_right (mul_nonneg (Nat.cast_nonneg _) (sum_nonneg fun c _ => ?_))
      rw [mul_assoc]
      exact mul_nonneg (one_div_nonneg.2 hmu.le) (mul_self_nonneg _)
    rw [e] at hle
    linarith
  have hreg := art_regular (P := locP s q v) h (artT_fst g1) hI0 (fun i A hA => SE3.actOn_symm _ hA)
    (fun i A hA v => SE3.actOn_mulMF _ hA v) (fun i v f => SE3.dot_actInv _ _ _) (fun i => SE3.actInv_zero _) hdef
  have hdim0 : x.dim 0 = conRow ms nc := by
    have e1 := hr.pv.slots.root_sum h.par (fun _ => (1 : ℤ))
    rw [pvOwn_sum hj' (fun _ _ => (1 : ℤ))] at e1
    simp only [sum_const, card_range, nsmul_eq_mul, mul_one] at e1
    rw [← Nat.cast_sum, Nat.cast_inj] at e1
    have e2 : ∀ n, conRow ms n = ∑ k ∈ range n, (ms k).type.dim := by
      intro n
      induction n with
      | zero => rfl
      | succ n ih => rw [sum_range_succ, ← ih]; rfl
    rw [e1, ← e2]
  have hdim : ∀ k < nc, ∀ r < (ms k).type.dim, conRow ms k + r < x.dim 0 := by
    intro k hk r hr'
    have := conRow_le ms hk
    rw [hdim0]; omega
  have hprox : 2 ≤ st.maxIter → (∀ k < nc, ∀ r < (ms k).type.dim, E.prox (conRow ms k + r)
      = ((ms k).accIn (forwardKinematicsA s d' q v E.data.ddq)).row r - (Y.2 k).aerr.row r) ∧
      E.absRes = infNorm (conRow ms nc) E.prox := by
    intro hn
    obtain ⟨e1, e2⟩ := hP2 (by omega)
    refine ⟨fun k hk r hr' => ?_, by rw [r3, e2, x3, c2, hdim0]⟩
    rw [← hres k hk r hr']
    have hd : 0 < B.dim (ms k).j1 := by
      have := pvOwn_row hk hr'
      have := hsl.own_le _ (hj' k hk)
      omega
    have e3 : E.data.a (ms k).j1 = z2.data.a (ms k).j1 :=
      (hE.oth _ (hj k hk).1 (hj k hk).2 (by rw [hI2.same.dim]; simpa using hd.ne')).1
    rw [e3, x3, e1 k hk r hr', c4, c5]
  refine ⟨fun w => ?_, fun hn k hk r hr' => ?_, a4, hprox⟩
  · obtain ⟨g, n1, n2⟩ := hI2.acc
    have hcore := aba_core (P := locP s q v) h (I0 := P0.data.Yaba) (p := fun i => P0.data.f i + conLoad ms nc B.KA lam i)
      (t := tau) (G := fun i => (A i, g i)) n1 hI0 (fun i A hA => SE3.actOn_symm _ hA)
      (fun i A hA v => SE3.actOn_mulMF _ hA v) (fun i v f => SE3.dot_actInv _ _ _) (fun i f g => SE3.actF_add _ _ _)
      (st := { locπ B.data with u := E.data.u }) (fun i h1 hi => ⟨(g2 i h1 hi).U, (g2 i h1 hi).StU, (g2 i h1 hi).Dinv,
        (g2 i h1 hi).UDinv, fun l hl => by
          change E.data.u _ = _
          rw [u3]; exact n2 i h1 hi l hl⟩)
      (fun i h1 hi => by
        change InvOk _ ((locπ B.data).StU i)
        rw [(g2 i h1 hi).StU]; exact hreg i h1 hi) (a := E.data.a) (x := E.data.ddq) ha (w := w) (V := s.V q w)
      (s.V_zero q w) (fun i h1 hi => s.V_step h1 (h.par.2 i h1 hi))
    rw [rnea_power h.wf d hq, hcore]
    have hterm : ∀ i ∈ Ico 1 s.n, (s.V q w i).dot ((P0.data.Yaba i).mulMF (E.data.a i) + (P0.data.f i + conLoad ms nc B.KA lam i))
        = (s.V q w i).dot (s.F (-s.grav) q v E.data.ddq i)
          + (∑ c ∈ range (pvOwn ms nc i), (conCount ms nc i / st.mu * (Y.1.lA i c + (E.data.a i).dot (x.KA i c)))
              * (s.V q w i).dot (x.KA i c)
            + (s.V q w i).dot (conLoad ms nc x.KA lam i)) := by
      intro i hi
      rw [mem_Ico] at hi
      have e0 : ∀ f : ℕ → K, ∑ c ∈ range (x.dim i), f c * (s.V q w i).dot (x.KA i c)
          = ∑ c ∈ range (pvOwn ms nc i), f c * (s.V q w i).dot (x.KA i c) := by
        intro f
        symm
        refine sum_subset (fun c hc => ?_) (fun c _ hc => ?_)
        · have := hr.pv.slots.own_le i hi.2
          rw [mem_range] at hc ⊢; omega
        · rw [hr.child i c (by simpa using hc), Motion.dot_zero, mul_zero]
      rw [(p2 i).1, (p2 i).2, hYm i hi.1 hi.2, hYf i hi.1 hi.2, Motion.dot_add, Motion.dot_add, Motion.dot_add, Motion.dot_add,
        dot_pen, dot_pen, e0, e0, hEA i hi.2, Inertia.matrix_mulMF, c4]
      have e1 : (s.V q w i).dot (s.F (-s.grav) q v E.data.ddq i) = (s.V q w i).dot ((s.Y i).mul (s.A (-s.grav) q v E.data.ddq i))
          + (s.V q w i).dot (s.bf q v (fun _ => 0) i) := by
        rw [← Motion.dot_add]
        unfold Sys.F Sys.bf
        rw [sub_zero]
      have e2 : ∑ c ∈ range (pvOwn ms nc i), (conCount ms nc i / st.mu
            * (Y.1.lA i c + (s.A (-s.grav) q v E.data.ddq i).dot (x.KA i c))) * (s.V q w i).dot (x.KA i c)
          = conCount ms nc i * (∑ c ∈ range (pvOwn ms nc i), 1 / st.mu * (s.A (-s.grav) q v E.data.ddq i).dot (x.KA i c)
              * (s.V q w i).dot (x.KA i c))
            + conCount ms nc i * ∑ c ∈ range (pvOwn ms nc i), 1 / st.mu * Y.1.lA i c * (s.V q w i).dot (x.KA i c) := by
        rw [mul_sum, mul_sum, ← sum_add_distrib]
        exact sum_congr rfl fun c _ => by ring
      rw [e1, e2]
      ring
    rw [sum_congr rfl hterm, sum_add_distrib, sum_add_distrib]
    have hrows : ∀ g : ℕ → ℕ → K, ∑ i ∈ Ico 1 s.n, ∑ c ∈ range (pvOwn ms nc i), g i c
        = ∑ k ∈ range nc, ∑ r ∈ range (ms k).type.dim, g (ms k).j1 (pvOwn ms k (ms k).j1 + r) := by
      intro g
      rw [← pvOwn_sum hj' g, range_eq_Ico, sum_eq_sum_Ico_succ_bot (by have := h.par.1; omega : 0 < s.n), hown0, range_zero,
        sum_empty, zero_add]
    have hload : ∑ i ∈ Ico 1 s.n, (s.V q w i).dot (conLoad ms nc x.KA lam i)
        = ∑ k ∈ range nc, ∑ r ∈ range (ms k).type.dim, lam (conRow ms k + r)
          * (s.V q w (ms k).j1).dot (x.KA (ms k).j1 (pvOwn ms k (ms k).j1 + r)) := by
      unfold conLoad
      rw [sum_congr rfl fun i _ => Motion.dot_sum _ _ _, sum_comm]
      refine sum_congr rfl fun k hk => ?_
      have hjk := hj k (mem_range.1 hk)
      rw [sum_eq_single (ms k).j1]
      · rw [if_pos rfl, Motion.dot_sum]
        exact sum_congr rfl fun r _ => Motion.dot_smul _ _ _
      · intro i _ hne
        rw [if_neg (Ne.symm hne), Motion.dot_zero]
      · intro hno
        exact absurd (mem_Ico.2 ⟨hjk.1, hjk.2⟩) hno
    rw [hrows fun i c => conCount ms nc i / st.mu * (Y.1.lA i c + (E.data.a i).dot (x.KA i c)) * (s.V q w i).dot (x.KA i c),
      hload]
    have hcon : s.conPower q ms nc (fun k r => cabaForce ms E k r - cabaForce ms x k r + conCount ms nc (ms k).j1 / st.mu
          * (((ms k).accIn (forwardKinematicsA s d' q v E.data.ddq)).row r - (Y.2 k).aerr.row r)) w
        = (∑ k ∈ range nc, ∑ r ∈ range (ms k).type.dim, conCount ms nc (ms k).j1 / st.mu
            * (Y.1.lA (ms k).j1 (pvOwn ms k (ms k).j1 + r)
              + (E.data.a (ms k).j1).dot (x.KA (ms k).j1 (pvOwn ms k (ms k).j1 + r)))
            * (s.V q w (ms k).j1).dot (x.KA (ms k).j1 (pvOwn ms k (ms k).j1 + r)))
          + ∑ k ∈ range nc, ∑ r ∈ range (ms k).type.dim, lam (conRow ms k + r)
            * (s.V q w (ms k).j1).dot (x.KA (ms k).j1 (pvOwn ms k (ms k).j1 + r)) := by
      unfold Sys.conPower Sys.conVel
      rw [← sum_add_distrib]
      refine sum_congr rfl fun k hk => ?_
      rw [← sum_add_distrib]
      refine sum_congr rfl fun r hr' => ?_
      rw [mem_range] at hk hr'
      rw [hres k hk r hr', hr.pv.KA k hk r hr', pvCol_dot]
      unfold cabaForce
      dsimp only
      rw [l3, hI2.lam0, c7]
      ring
    rw [hcon]
    ring
  · obtain ⟨e1, e2⟩ := hprox hn
    rw [← e1 k hk r hr', e2]
    exact le_infNorm _ _ _ (hdim0 ▸ hdim k hk r hr')

/-! ## one more turn -/

theorem cabaTurn_lam (h : s.Packed) (mu : K) (x : PvData K) (r : ℕ) :
    (cabaTurn s mu ms nc x).lamA 0 r = x.lamA 0 r + 1 / mu * x.prox r := by
  unfold cabaTurn
  dsimp only
  set z1 : PvData K := { x with lamA := upd x.lamA 0 (fun r => x.lamA 0 r + 1 / mu * x.prox r) } with hz1
  have k5 : (bwd (cabaRed s) s.n (upTo (cabaLoad mu ms) nc (fwd cabaClear s.n z1))).lamA = z1.lamA := by
    refine bwd_ind (step := cabaRed s) (n := s.n) (P := fun _ (y : PvData K) => y.lamA = z1.lamA) h.par.1 ?_ ?_
    · rw [(cabaLoad_ok (ms := ms) mu _ nc).1, (cabaClear_ok h z1).1]
    · intro i y _ _ hy
      rw [← hy]
      unfold cabaRed
      split <;> rfl
  rw [(cabaProx_ok (ms := ms) _ nc).1, (cabaFwd_ok h true _).keep, k5, hz1]
  dsimp only
  rw [upd_self]

theorem cabaLoop_succ (st : ProxSet K) : ∀ (n : ℕ) (z : PvData K),
    (1 ≤ n ∧ (cabaLoop s st ms nc n z).absRes ≤ st.absAcc ∧ cabaLoop s st ms nc (n + 1) z = cabaLoop s st ms nc n z) ∨
    ((n = 0 ∨ st.absAcc < (cabaLoop s st ms nc n z).absRes) ∧
      ∃ r, cabaLoop s st ms nc (n + 1) z = { cabaTurn s st.mu ms nc (cabaLoop s st ms nc n z) with absRes := r }) := by
  intro n
  induction n with
  | zero =>
    intro z
    refine .inr ⟨.inl rfl, ?_⟩
    unfold cabaLoop
    dsimp only
    split
    · exact ⟨_, rfl⟩
    · exact ⟨_, rfl⟩
  | succ n ih =>
    intro z
    set y' : PvData K := { cabaTurn s st.mu ms nc z with
      absRes := infNorm ((cabaTurn s st.mu ms nc z).dim 0) (cabaTurn s st.mu ms nc z).prox } with hy'
    have e : ∀ n, cabaLoop s st ms nc (n + 1) z = if y'.absRes ≤ st.absAcc then y' else cabaLoop s st ms nc n y' := fun _ => rfl
    rw [e, e]
    by_cases hs : y'.absRes ≤ st.absAcc
    · rw [if_pos hs, if_pos hs]
      exact .inl ⟨by omega, hs, rfl⟩
    · rw [if_neg hs, if_neg hs]
      rcases ih y' with ⟨i1, i2, i3⟩ | ⟨i1, i2⟩
      · exact .inl ⟨by omega, i2, i3⟩
      · refine .inr ⟨.inr ?_, i2⟩
        rcases i1 with rfl | i1
        · exact not_le.1 hs
        · exact i1

/-- calls with `max_iter` one apart -/
theorem caba_next (h : s.Packed) (lg : SE3 K → Motion K) (x : PvData K) (ks : ℕ → Corr K) (cd : ℕ → PvCon K) (st : ProxSet K)
    (n : ℕ) :
    let y := (constrainedABA lg s x q v tau ms ks nc cd { st with maxIter := n + 1 }).1
    let y' := (constrainedABA lg s x q v tau ms ks nc cd { st with maxIter := n + 2 }).1
    (y.absRes ≤ st.absAcc ∧ y' = y) ∨
    ((n = 0 ∨ st.absAcc < y.absRes) ∧ ∀ r, y'.lamA 0 r = y.lamA 0 r + 1 / st.mu * y.prox r) := by
  have loop : ∀ m m' z, cabaLoop s { st with maxIter := m } ms nc m' z = cabaLoop s st ms nc m' z := by
    intro m m'
    induction m' with
    | zero => intro z; rfl
    | succ m' ih =>
      intro z
      unfold cabaLoop
      dsimp only
      rw [ih]
  unfold constrainedABA
  dsimp only
  simp only [loop]
  rw [show n + 1 - 1 = n from rfl, show n + 2 - 1 = n + 1 from rfl]
  set z := fwd (cabaFwd s true) s.n (upTo (cabaProx ms) nc (bwd (cabaBwd s) s.n
    (cabaSetup lg s x q v tau ms ks nc cd st.mu).1)) with hz
  clear_value z
  have e1 : ∀ w : PvData K, (fwd (cabaFwd s false) s.n w).absRes = w.absRes ∧ (fwd (cabaFwd s false) s.n w).lamA = w.lamA ∧
      (fwd (cabaFwd s false) s.n w).prox = w.prox := fun w => by
    have := (cabaFwd_ok h false w).keep
    exact ⟨by rw [this], by rw [this], by rw [this]⟩
  rcases cabaLoop_succ (s := s) (ms := ms) (nc := nc) st n z with ⟨-, i2, i3⟩ | ⟨i1, r, i2⟩
  · exact .inl ⟨by rw [(e1 _).1]; exact i2, by rw [i3]⟩
  · refine .inr ⟨by rw [(e1 _).1]; exact i1, fun r' => ?_⟩
    rw [(e1 _).2.1, (e1 _).2.1, (e1 _).2.2, i2]
    exact cabaTurn_lam h st.mu _ r'

/-- the fields that `constrainedABA` only reads -/
def CabaFix (x z : PvData K) : Prop := z.KA = x.KA ∧ z.dim = x.dim ∧ z.pind = x.pind ∧ z.LA = x.LA

theorem cabaTurn_fix (h : s.Packed) (mu : K) {x z : PvData K} (hz : CabaFix x z) : CabaFix x (cabaTurn s mu ms nc z) := by
  unfold cabaTurn
  dsimp only
  refine upTo_ind (fun _ z => CabaFix x z) ?_ fun k z _ hz => hz
  refine fwd_ind (fun _ z => CabaFix x z) h.par.1 ?_ fun i z _ _ hz => by unfold cabaFwd; split <;> exact hz
  refine bwd_ind (fun _ z => CabaFix x z) h.par.1 ?_ fun i z _ _ hz => by unfold cabaRed; split <;> exact hz
  refine upTo_ind (fun _ z => CabaFix x z) ?_ fun k z _ hz => hz
  refine fwd_ind (fun _ z => CabaFix x z) h.par.1 ?_ fun i z _ _ hz => by unfold cabaClear; split <;> exact hz
  exact hz

theorem cabaLoop_fix (h : s.Packed) (st : ProxSet K) (x : PvData K) : ∀ (n : ℕ) (z : PvData K), CabaFix x z →
    CabaFix x (cabaLoop s st ms nc n z)
  | 0, _, hz => hz
  | n + 1, z, hz => by
    have hz' := cabaTurn_fix (ms := ms) (nc := nc) h st.mu hz
    unfold cabaLoop
    dsimp only
    split
    · exact hz'
    · exact cabaLoop_fix h st x n _ hz'

/-- a call keeps what the next one needs -/
theorem caba_ready (h : s.Packed) {lg : SE3 K → Motion K} {x : PvData K} (hr : CabaReady s ms nc x)
    (ks : ℕ → Corr K) (cd : ℕ → PvCon K) (st : ProxSet K) :
    CabaReady s ms nc (constrainedABA lg s x q v tau ms ks nc cd st).1 := by
  have key : CabaFix x (constrainedABA lg s x q v tau ms ks nc cd st).1 := by
    unfold constrainedABA cabaSetup
    dsimp only
    refine fwd_ind (fun _ z => CabaFix x z) h.par.1 ?_ fun i z _ _ hz => by unfold cabaFwd; split <;> exact hz
    refine cabaLoop_fix h st x _ _ ?_
    refine fwd_ind (fun _ z => CabaFix x z) h.par.1 ?_ fun i z _ _ hz => by unfold cabaFwd; split <;> exact hz
    refine upTo_ind (fun _ z => CabaFix x z) ?_ fun k z _ hz => hz
    refine bwd_ind (fun _ z => CabaFix x z) h.par.1 ?_ fun i z _ _ hz => hz
    refine upTo_ind (fun _ z => CabaFix x z) ?_ fun k z _ hz => hz
    obtain ⟨a, b, c, -⟩ := pvSetup_keep (q := q) (v := v) (tau := tau) (ms := ms) (nc := nc) (lg := lg) h x ks cd
    exact ⟨a, b, c, rfl⟩
  obtain ⟨k1, k2, k3, k4⟩ := key
  exact ⟨⟨by rw [k2, k3]; exact hr.pv.slots, by rw [k1]; exact hr.pv.KA, by rw [k2, k3, k4]; exact hr.pv.LA⟩,
    by rw [k1]; exact hr.child⟩

theorem CabaReach.ready (h : s.Packed) (hf : PvFit s ms nc) {x : PvData K} (hx : CabaReach s ms nc x) :
    CabaReady s ms nc x := by
  induction hx with
  | init x => exact ⟨initPvSolver_ready h.par x, initPvSolver_child x⟩
  | call lg q v tau ks cd st _ hq ih => exact caba_ready h ih ks cd st

end order
end Pin
