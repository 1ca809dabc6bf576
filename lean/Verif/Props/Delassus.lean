import Verif.Algo.DelassusLemmas
import Verif.Props.ContactDynamics
import Verif.Props.ConstraintDynamics

/-!
# C76: the Delassus matrix of a set of contacts

The matrix is `J (M + μ Jᵀ J)⁻¹ Jᵀ`, where row `(k, r)` of `J w` is coordinate `r` of the velocity of the first frame of contact
`k` (`Sys.conVel`, `Spec/Delassus.lean`), and `M` is the mass matrix with the armature. The C++ function writes the blocks on and
above the diagonal.
-/

namespace Pin
open Finset
variable {K : Type*} [Field K] {s : Sys K} {q : ℕ → K} {ms : ℕ → RCM K} {nc : ℕ}

/-- contacts on joints of the model, not on the universe -/
def ContactsOk (s : Sys K) (ms : ℕ → RCM K) (nc : ℕ) : Prop :=
  ∀ k < nc, 1 ≤ (ms k).j1 ∧ (ms k).j1 < s.n ∧ (ms k).P1.Valid

/-- the first matrix of `lambdas_joint1` is the zero the constructor has written (`contact-info.hpp:952`) -/
def LamZero (ms : ℕ → RCM K) (nc : ℕ) (cd : ℕ → OContact K) : Prop :=
  ∀ k < nc, ∀ r < (ms k).type.dim, (cd k).lam 0 r = 0

/-- entry `(i, r), (k, c)` of a symmetric matrix whose blocks are stored on and above the diagonal -/
def blockEntry (ms : ℕ → RCM K) (D : ℕ → ℕ → K) (i r k c : ℕ) : K :=
  if i ≤ k then D (conRow ms i + r) (conRow ms k + c) else D (conRow ms k + c) (conRow ms i + r)

theorem Sys.conPower_symm (s : Sys K) (q : ℕ → K) (ms : ℕ → RCM K) (nc : ℕ) (w a : ℕ → K) :
    s.conPower q ms nc (fun k r => (s.conVel q (ms k) a).row r) w
      = s.conPower q ms nc (fun k r => (s.conVel q (ms k) w).row r) a := by
  unfold Sys.conPower
  exact sum_congr rfl fun k _ => sum_congr rfl fun r _ => mul_comm _ _

theorem Sys.dampedForm_symm (mu : K) (w a : ℕ → K) : s.dampedForm q ms nc mu w a = s.dampedForm q ms nc mu a w := by
  unfold Sys.dampedForm
  rw [s.massForm_symm, s.conPower_symm]

section
variable [LinearOrder K]

/-- **The Delassus matrix.** For every model, configuration, set of contacts and damping `mu ≥ 0` such that `M + mu Jᵀ J` is
definite, whatever the data and the output matrix held: the call succeeds; the columns of `(M + mu Jᵀ J)⁻¹ Jᵀ` exist; and entry
`(i, r), (k, c)` of the output, on and above the diagonal blocks, is row `(i, r)` of `J` applied to column `(k, c)`. The blocks
below the diagonal are left as they were. The hypothesis on the contact data holds again afterwards. -/
theorem C76_delassus (h : s.Packed) (hq : s.At q) {mu : K} (hmu : 0 ≤ mu) (hms : ContactsOk s ms nc)
    (hdef : s.DampedDef q ms nc mu) (x : OData K) {cd : ℕ → OContact K} (hl0 : LamZero ms nc cd) (D : ℕ → ℕ → K) :
    ∃ z : OSim K, computeDelassusMatrix s ms nc x cd q (conRow ms nc) (conRow ms nc) D mu = .ok () z ∧
      LamZero ms nc z.cd ∧ (∀ k < nc, ∀ c < (ms k).type.dim, ∃ y, s.IsResponse q ms nc mu k c y) ∧
      (∀ i k, i ≤ k → k < nc → ∀ r < (ms i).type.dim, ∀ c < (ms k).type.dim, ∀ y, s.IsResponse q ms nc mu k c y →
        z.D (conRow ms i + r) (conRow ms k + c) = (s.conVel q (ms i) y).row r) ∧
      ∀ i k, i < k → k < nc → ∀ r < (ms k).type.dim, ∀ c < (ms i).type.dim,
        z.D (conRow ms k + r) (conRow ms i + c) = D (conRow ms k + r) (conRow ms i + c) := by
  obtain ⟨resp, z, e, h0, h1, h2, h3⟩ := delassus_ok h hq hmu hms hdef x hl0 D
  refine ⟨z, e, fun k hk r hr => by rw [h0]; exact hl0 k hk r hr, fun k hk c hc => ⟨_, h1 k hk c hc⟩, fun i k hik hk r hr c hc y hy => ?_, fun i k hik hk r hr c hc => ?_⟩
  · rw [h2 i k hik hk r hr c hc, ← h1 i (by omega) r hr (resp k c), ← h1 i (by omega) r hr y,
      Sys.dampedForm_symm mu (resp k c), Sys.dampedForm_symm mu y, h1 k hk c hc, hy]
  · apply h3
    rintro i' k' hik' hk' r' hr' c' hc' ⟨e1, e2⟩
    have := (conRow_inj ms hr hr' e1).1
    have := (conRow_inj ms hc hc' e2).1
    omega

variable [IsStrictOrderedRing K] [HasEps K]

/-- with massive bodies, independent joint columns and non-negative armature, every `mu ≥ 0` is covered, contacts redundant or
not -/
theorem C76_definite (h : s.Packed) (hH : s.Heavy q) {mu : K} (hmu : 0 ≤ mu) (ms : ℕ → RCM K) (nc : ℕ) :
    s.DampedDef q ms nc mu := by
  intro w e r hr
  by_contra hne
  have h1 := Sys.massForm_pos h hH.body hH.cols hH.arm w ⟨r, hr, hne⟩
  have h2 : 0 ≤ s.conPower q ms nc (fun k r => (s.conVel q (ms k) w).row r) w :=
    sum_nonneg fun k _ => sum_nonneg fun r _ => mul_self_nonneg _
  have h3 := mul_nonneg hmu h2
  unfold Sys.dampedForm at e
  linarith

/-- **The Delassus matrix without damping** is `J M⁻¹ Jᵀ`: if `y` is the acceleration the unit force `c` of contact `k` causes,
the entries of column `(k, c)` are the accelerations of the contact frames. -/
theorem C76_undamped (h : s.Packed) (hq : s.At q) (hH : s.Heavy q) (hms : ContactsOk s ms nc) (x : OData K)
    {cd : ℕ → OContact K} (hl0 : LamZero ms nc cd) (D : ℕ → ℕ → K) :
    ∃ z : OSim K, computeDelassusMatrix s ms nc x cd q (conRow ms nc) (conRow ms nc) D 0 = .ok () z ∧
      ∀ i k, i ≤ k → k < nc → ∀ r < (ms i).type.dim, ∀ c < (ms k).type.dim, ∀ y,
        (∀ w, s.massForm q w y = (s.conVel q (ms k) w).row c) →
        z.D (conRow ms i + r) (conRow ms k + c) = (s.conVel q (ms i) y).row r := by
  obtain ⟨z, e, -, -, h1, -⟩ := C76_delassus h hq le_rfl hms (C76_definite h hH le_rfl ms nc) x hl0 D
  refine ⟨z, e, fun i k hik hk r hr c hc y hy => h1 i k hik hk r hr c hc y fun w => ?_⟩
  unfold Sys.dampedForm
  rw [zero_mul, add_zero, hy]

/-- **The inverse of the damped Delassus matrix** (EFPA, `Pv = false`). With `scaled = false` the matrix `X` stored on and above the
diagonal blocks is the inverse of `J M⁻¹ Jᵀ + mu I`: for every contact force `f` and the acceleration `y` it causes,
`X (J y + mu f) = f`. With `scaled = true` it is `mu` times this inverse. -/
theorem C76_damped_inverse (h : s.Packed) (hq : s.At q) (hH : s.Heavy q) (hms : ContactsOk s ms nc) {dummy mu : K}
    (hd : 0 < dummy) (hmu : dummy ≤ mu) (x : OData K) {cd : ℕ → OContact K} (hl0 : LamZero ms nc cd) (D : ℕ → ℕ → K)
    (scaled : Bool) :
    ∃ z : OSim K, computeDampedDelassusMatrixInverse dummy s ms nc x cd q (conRow ms nc) (conRow ms nc) D mu scaled
        = .ok () z ∧
      ∀ (f : ℕ → ℕ → K) (y : ℕ → K), (∀ w, s.massForm q w y = s.conPower q ms nc f w) →
        ∀ i < nc, ∀ r < (ms i).type.dim,
          (∑ k ∈ range nc, ∑ c ∈ range (ms k).type.dim,
            blockEntry ms z.D i r k c * ((s.conVel q (ms k) y).row c + mu * f k c))
          = if scaled then mu * f i r else f i r := by
  have hm : 0 < mu := lt_of_lt_of_le hd hmu
  have hmi : 0 ≤ 1 / mu := by positivity
  obtain ⟨z, e, -, h1, h2, -⟩ := C76_delassus h hq hmi hms (C76_definite h hH hmi ms nc) x hl0 D
  unfold computeDampedDelassusMatrixInverse
  rw [if_neg (not_not.2 hmu)]
  dsimp only
  rw [e]
  refine ⟨_, rfl, fun f y hy i hi r hr => ?_⟩
  have hex : ∀ k c, ∃ u, k < nc → c < (ms k).type.dim → s.IsResponse q ms nc (1 / mu) k c u := by
    intro k c
    by_cases hk : k < nc ∧ c < (ms k).type.dim
    · obtain ⟨u, hu⟩ := h1 k hk.1 c hk.2
      exact ⟨u, fun _ _ => hu⟩
    · exact ⟨fun _ => 0, fun a b => absurd ⟨a, b⟩ hk⟩
  choose u hu using hex
  -- entries
  have hent : ∀ k < nc, ∀ c < (ms k).type.dim, blockEntry ms z.D i r k c = (s.conVel q (ms k) (u i r)).row c := by
    intro k hk c hc
    unfold blockEntry
    split
    · rename_i hik
      rw [h2 i k hik hk r hr c hc _ (hu k c hk hc), ← hu i r hi hr, Sys.dampedForm_symm, hu k c hk hc]
    · rename_i hik
      exact h2 k i (by omega) hi c hc r hr _ (hu i r hi hr)
  have hE : ∀ k < nc, ∀ c < (ms k).type.dim,
      blockEntry ms (fun R C => (if scaled = true then fun R C => if R = C then z.D R C * (-(1 / mu)) + 1
        else z.D R C * (-(1 / mu)) else fun R C => (if R = C then z.D R C * (-(1 / mu)) + 1
        else z.D R C * (-(1 / mu))) * (1 / mu)) R C) i r k c
      = (if scaled = true then 1 else 1 / mu) * ((s.conVel q (ms k) (u i r)).row c * (-(1 / mu))
        + if i = k ∧ r = c then 1 else 0) := by
    intro k hk c hc
    rw [← hent k hk c hc]
    have hiff : conRow ms i + r = conRow ms k + c ↔ i = k ∧ r = c :=
      ⟨conRow_inj ms hr hc, by rintro ⟨rfl, rfl⟩; rfl⟩
    have hiff' : conRow ms k + c = conRow ms i + r ↔ i = k ∧ r = c := by rw [eq_comm, hiff]
    unfold blockEntry
    cases scaled <;> by_cases hik : i ≤ k <;>
      simp only [hik, if_true, if_false, hiff, hiff', Bool.false_eq_true] <;> split_ifs <;> ring
  rw [sum_congr rfl fun k hk => sum_congr rfl fun c hc => by rw [hE k (mem_range.1 hk) c (mem_range.1 hc)]]
  -- the response of the forces
  have hpow : (∑ k ∈ range nc, ∑ c ∈ range (ms k).type.dim, (s.conVel q (ms k) (u i r)).row c
      * ((s.conVel q (ms k) y).row c + mu * f k c)) = mu * (s.conVel q (ms i) y).row r := by
    have e1 : s.dampedForm q ms nc (1 / mu) (u i r) y = (s.conVel q (ms i) y).row r := by
      rw [Sys.dampedForm_symm, hu i r hi hr]
    have e2 : s.dampedForm q ms nc (1 / mu) (u i r) y = s.conPower q ms nc f (u i r)
        + 1 / mu * s.conPower q ms nc (fun k r => (s.conVel q (ms k) y).row r) (u i r) := by
      unfold Sys.dampedForm; rw [hy]
    have e3 : (∑ k ∈ range nc, ∑ c ∈ range (ms k).type.dim, (s.conVel q (ms k) (u i r)).row c
        * ((s.conVel q (ms k) y).row c + mu * f k c))
        = s.conPower q ms nc (fun k r => (s.conVel q (ms k) y).row r) (u i r) + mu * s.conPower q ms nc f (u i r) := by
      unfold Sys.conPower
      rw [mul_sum, ← sum_add_distrib]
      apply sum_congr rfl
      intro k _
      rw [mul_sum, ← sum_add_distrib]
      exact sum_congr rfl fun c _ => by ring
    rw [e3, ← e1, e2]
    field_simp
    ring
  have hdiag : (∑ k ∈ range nc, ∑ c ∈ range (ms k).type.dim, (if i = k ∧ r = c then (1 : K) else 0)
      * ((s.conVel q (ms k) y).row c + mu * f k c)) = (s.conVel q (ms i) y).row r + mu * f i r := by
    rw [sum_eq_single_of_mem i (mem_range.2 hi), sum_eq_single_of_mem r (mem_range.2 hr)]
    · simp
    · intro c _ hne; simp [Ne.symm hne]
    · intro k _ hne; simp [Ne.symm hne]
  have hsum : (∑ k ∈ range nc, ∑ c ∈ range (ms k).type.dim, (if scaled = true then 1 else 1 / mu)
      * ((s.conVel q (ms k) (u i r)).row c * (-(1 / mu)) + if i = k ∧ r = c then 1 else 0)
      * ((s.conVel q (ms k) y).row c + mu * f k c))
      = (if scaled = true then 1 else 1 / mu) * (-(1 / mu) * (∑ k ∈ range nc, ∑ c ∈ range (ms k).type.dim,
          (s.conVel q (ms k) (u i r)).row c * ((s.conVel q (ms k) y).row c + mu * f k c))
        + ∑ k ∈ range nc, ∑ c ∈ range (ms k).type.dim, (if i = k ∧ r = c then (1 : K) else 0)
          * ((s.conVel q (ms k) y).row c + mu * f k c)) := by
    rw [mul_sum, ← sum_add_distrib, mul_sum]
    apply sum_congr rfl
    intro k _
    rw [mul_sum, ← sum_add_distrib, mul_sum]
    exact sum_congr rfl fun c _ => by ring
  rw [hsum, hpow, hdiag]
  cases scaled <;> simp <;> field_simp <;> ring

omit [IsStrictOrderedRing K] [HasEps K] in
/-- a negative damping and a matrix of a wrong size are refused, before anything is written -/
theorem C76_refused (x : OData K) (cd : ℕ → OContact K) (rows cols : ℕ) (D : ℕ → ℕ → K) (mu : K)
    (hbad : mu < 0 ∨ rows ≠ conRow ms nc ∨ cols ≠ conRow ms nc) :
    computeDelassusMatrix s ms nc x cd q rows cols D mu = .throw () := by
  unfold computeDelassusMatrix
  by_cases hmu : mu < 0
  · rw [if_pos (not_le.2 hmu)]
  · rw [if_neg (not_not.2 (not_lt.1 hmu)), if_pos (hbad.resolve_left hmu)]

end

/-! ## the hypotheses are met -/

namespace Ex
/-- a slider along `x` that carries two sliders, along `y` and `z` -/
def sysY : Sys ℚ where
  n := 4
  par i := if i ≤ 1 then 0 else 1
  pl _ := 1
  Y i := ⟨i, 0, ⟨1, 0, 1, 0, 0, 1⟩⟩
  jt i := jPrismatic (if i = 1 then 0 else if i = 2 then 1 else 2)
  iq i := i - 1
  iv i := i - 1
  nv := 3
  arm _ := 1 / 2
  grav := 0

/-- a point contact on joint 2 and a frame contact on joint 3 -/
def msY (k : ℕ) : RCM ℚ :=
  if k = 0 then ⟨.CONTACT_3D, 2, 0, ⟨1, ⟨1, 2, 3⟩⟩, 1, .LOCAL, fun _ => true, fun _ => false, []⟩
  else ⟨.CONTACT_6D, 3, 0, 1, 1, .LOCAL, fun _ => true, fun _ => false, []⟩

def odZ : OData ℚ := ⟨Data.zero, fun _ => 0, fun _ => 0⟩
def cdZ : ℕ → OContact ℚ := fun _ => ⟨1, fun _ _ => 0, fun _ _ => 0⟩

theorem sysY_packed : sysY.Packed := by
  refine ⟨⟨by decide, fun i h1 hi => ?_⟩, fun i h1 hi => ?_, rfl⟩ <;>
  · change i < 4 at hi
    interval_cases i <;> first | rfl | decide

theorem sysY_heavy (q : ℕ → ℚ) : sysY.Heavy q := by
  refine ⟨fun i h1 _ => ⟨?_, fun w hw => ?_⟩, fun i h1 hi x hx k hk => ?_, fun _ _ => by norm_num [sysY]⟩
  · show (0 : ℚ) < i
    exact_mod_cast h1
  · have h := lt_of_le_of_ne (Inertia.sqNorm_nonneg w) fun e => hw (Inertia.eq_zero_of_sqNorm e.symm)
    simp only [sysY, Sym3.vtiv, V3.sqNorm] at h ⊢
    nlinarith
  · change k < 1 at hk
    change i < 4 at hi
    obtain rfl : k = 0 := by omega
    interval_cases i <;>
    simpa [comb, sysY, Sys.jnv, Sys.S, jPrismatic, Motion.ext_iff, V3.ext_iff, cols, V3.axis] using hx
end Ex

example : Ex.sysY.Packed ∧ Ex.sysY.At (fun _ => 1) ∧ Ex.sysY.Heavy (fun _ => 1) ∧ ContactsOk Ex.sysY Ex.msY 2 ∧
    Ex.sysY.DampedDef (fun _ => 1) Ex.msY 2 (1 / 3) ∧ LamZero Ex.msY 2 Ex.cdZ ∧ conRow Ex.msY 2 = 9 := by
  refine ⟨Ex.sysY_packed, ⟨fun _ _ _ => SE3.valid_one, fun _ _ _ => jPrismatic_ok _ _⟩, Ex.sysY_heavy _, ?_,
    C76_definite Ex.sysY_packed (Ex.sysY_heavy _) (by norm_num) _ _, fun _ _ _ _ => rfl, by decide⟩
  intro k hk
  interval_cases k
  · exact ⟨by decide, by decide, M3.IsRot.one⟩
  · exact ⟨by decide, by decide, SE3.valid_one⟩

/-! ## findings -/

/-- `computeDelassusMatrix` on a contact whose first joint is the universe indexes `lambdas_joint1[1]` (`delassus.hxx:213, 231`), a
vector of size 1 (`contact-info.hpp:952`): undefined behaviour, on every model, instead of a zero block or an error. -/
theorem C76_universe_counterexample [LinearOrder K] {mu : K} (hmu : 0 ≤ mu) {k : ℕ} (hk : k < nc) (h0 : (ms k).j1 = 0)
    (x : OData K) (cd : ℕ → OContact K) (D : ℕ → ℕ → K) :
    computeDelassusMatrix s ms nc x cd q (conRow ms nc) (conRow ms nc) D mu = .ub := by
  unfold computeDelassusMatrix
  rw [if_neg (not_not.2 hmu), if_neg (by simp)]
  dsimp only
  generalize upTo (osimContact ms mu) nc (fwd (osimFwd s q) s.n x.data, cd) = y
  rw [upTo_ind (fun n z => (∃ k < n, (ms k).j1 = 0) → z = none) (by rintro ⟨k, hk, -⟩; omega) ?_ ⟨k, hk, h0⟩]
  rintro n z hn ih ⟨j, hj, hj0⟩
  rcases z with _ | z
  · rfl
  · have hjn : j = n := by
      by_contra hne
      have := ih ⟨j, by omega, hj0⟩
      cases this
    subst hjn
    unfold osimStep osimSweep
    rw [hj0, sup_zero]
    rfl

example : computeDelassusMatrix Ex.sysY (fun k => { Ex.msY k with j1 := 0 }) 1 Ex.odZ Ex.cdZ (fun _ => 0) 3 3 (fun _ _ => 0) 0
    = .ub := C76_universe_counterexample le_rfl Nat.one_pos rfl _ _ _

/-- The matrix depends on the type, the first joint and the first placement of the contacts only. `joint2_id`, `joint2_placement` and
`reference_frame` are not read, although the contact models have them and the other algorithms use them: the result for a contact
between two moving bodies, or expressed in `LOCAL_WORLD_ALIGNED`, is that of a contact of the first body with the world,
in `LOCAL`. -/
theorem C76_ignores [LinearOrder K] {ms' : ℕ → RCM K}
    (he : ∀ k, (ms k).type = (ms' k).type ∧ (ms k).j1 = (ms' k).j1 ∧ (ms k).P1 = (ms' k).P1) (x : OData K)
    (cd : ℕ → OContact K) (rows cols : ℕ) (D : ℕ → ℕ → K) (mu : K) :
    computeDelassusMatrix s ms nc x cd q rows cols D mu = computeDelassusMatrix s ms' nc x cd q rows cols D mu := by
  have e1 : conRow ms = conRow ms' := by
    funext k
    induction k with
    | zero => rfl
    | succ k ih => unfold conRow; rw [ih, (he k).1]
  have e2 : osimContact ms mu = osimContact ms' mu := by
    funext k y
    unfold osimContact
    simp only [(he k).1, (he k).2.1, (he k).2.2]
  have e3 : ∀ x, osimStep s ms x = osimStep s ms' x := by
    intro x
    funext k y
    unfold osimStep osimSweep osimBlock
    simp only [fun k => (he k).1, fun k => (he k).2.1, e1]
  unfold computeDelassusMatrix
  simp only [e1, e2, e3]

/-- the matrix of a call that succeeds -/
def Res.matrix : Res Unit (OSim K) → Option (ℕ → ℕ → K)
  | .ok _ z => some z.D
  | _ => none

namespace Ex
/-- a point contact between the two bodies of `sysP`, two sliders on top of each other -/
def msR (_ : ℕ) : RCM ℚ := ⟨.CONTACT_3D, 1, 2, 1, 1, .LOCAL, fun _ => true, fun _ => true, []⟩
/-- the relative velocity of the two frames of `msR`, in the first one -/
def relVel (w : ℕ → ℚ) : Motion ℚ :=
  sysP.V (fun _ => 0) w 1 - (sysP.oM (fun _ => 0) 1).actInv ((sysP.oM (fun _ => 0) 2).act (sysP.V (fun _ => 0) w 2))
/-- the acceleration caused by a unit force along `x` between the two bodies -/
def yR (r : ℕ) : ℚ := if r = 0 then 1 else if r = 1 then -2 else 0
end Ex

set_option maxRecDepth 100000 in
/-- For a contact between two moving bodies `computeDelassusMatrix` returns the matrix of a contact of the first body with the
world: on two sliders on top of each other the entry is 1 instead of 2. -/
theorem C76_joint2_counterexample :
    (∀ r < 2, Ex.sysP.massForm (fun _ => 0) (Sys.unit r) Ex.yR = (Ex.relVel (Sys.unit r)).row 0) ∧
    (Ex.relVel Ex.yR).row 0 = 2 ∧
    ((computeDelassusMatrix Ex.sysP Ex.msR 1 Ex.odZ Ex.cdZ (fun _ => 0) 3 3 (fun _ _ => 0) 0).matrix.map fun D => D 0 0)
      = some 1 := by
  decide +kernel

set_option maxRecDepth 100000 in
/-- The blocks below the diagonal are not written, so that what `computeDelassusMatrix` leaves in "the resulting Delassus matrix"
(`delassus.hpp:38`) is not symmetric: a zero matrix passed by the caller keeps its zero where the symmetric entry is not zero. -/
theorem C76_lower_counterexample :
    ∃ a, a ≠ 0 ∧ ((computeDelassusMatrix Ex.sysY Ex.msY 2 Ex.odZ Ex.cdZ (fun _ => 0) 9 9 (fun _ _ => 0) 0).matrix.map
      fun D => (D 0 3, D 3 0)) = some (a, 0) := by
  refine ⟨2 / 13, by norm_num, ?_⟩
  decide +kernel

end Pin
