import Verif.Algo.PvDelassusFin
import Verif.Props.Delassus

/-!
# C82: the Delassus matrix by the PV recursion

`computePvDelassusMatrix` returns the matrix of C76, `J (M + μ Jᵀ J)⁻¹ Jᵀ`, on and above the diagonal blocks, when
`initPvDelassus` has been called once on the data for the same contacts.
-/

namespace Pin
open Finset
variable {K : Type*} [Field K] {s : Sys K} {q : ℕ → K} {ms : ℕ → RCM K} {nc : ℕ}

/-- `spatial_inv_inertia[0]` is the zero the constructor has written (`multibody/data.hxx:159`) -/
def InvZero (x : PData K) : Prop := ∀ r < 6, ∀ c < 6, x.Lam 0 r c = 0

/-- the tables after `initPvDelassus` on new data -/
def pvTables (s : Sys K) (ms : ℕ → RCM K) (nc : ℕ) : AccTab := initPvDelassus s.par s.n ms nc AccTab.new

open Classical in
/-- **The tables** that `initPvDelassus` writes on new data: for every joint `i`, `dim` is the total size of the contacts
on `i` and its descendants, `sup` their set; the accumulation joints are listed once each, and they are the joints `i`
that support some contact and such that no child of `i` supports all the contacts of `i`. -/
theorem C82_tables (h : s.Packed) (hms : ContactsOk s ms nc) :
    (∀ i, 1 ≤ i → i < s.n →
      (pvTables s ms nc).dim i = ∑ c ∈ range nc, (if anc s.par i (ms c).j1 then (ms c).type.dim else 0)) ∧
    (∀ i, 1 ≤ i → i < s.n → ∀ c, c ∈ (pvTables s ms nc).sup i ↔ c < nc ∧ anc s.par i (ms c).j1) ∧
    (pvTables s ms nc).joints.Nodup ∧
    ∀ i, i ∈ (pvTables s ms nc).joints ↔ (1 ≤ i ∧ i < s.n) ∧ (∃ c < nc, anc s.par i (ms c).j1) ∧
      ∀ b, 1 ≤ b → b < s.n → s.par b = i → ∃ c < nc, anc s.par i (ms c).j1 ∧ ¬ anc s.par b (ms c).j1 := by
  have hJ : ∀ c < nc, 1 ≤ jOf ms c ∧ jOf ms c < s.n := fun k hk => ⟨(hms k hk).1, (hms k hk).2.1⟩
  have ht := initPvDelassus_ok (ms := ms) h.par hJ
  refine ⟨fun i h1 hi => ?_, fun i h1 hi c => ?_, ?_, fun i => ?_⟩
  · unfold pvTables
    rw [ht.dim i hi]
    unfold cs
    rw [sum_filter]
    rfl
  · unfold pvTables
    rw [ht.sup i h1 hi, mem_cs]; rfl
  · unfold pvTables
    rw [ht.joints]
    exact (List.nodup_range' (step := 1)).filter _
  · unfold pvTables
    rw [ht.joints, List.mem_filter, List.mem_range'_1, decide_eq_true_eq]
    constructor
    · rintro ⟨⟨h1, h2⟩, hd⟩
      have hi : i < s.n := by omega
      obtain ⟨c, hc⟩ := ht.ne h.par hJ h1 hi (by omega)
      refine ⟨⟨h1, hi⟩, ⟨c, mem_cs.1 hc⟩, fun b b1 bn bp => ?_⟩
      by_contra hno
      push Not at hno
      have e : cs s.par (jOf ms) nc b = cs s.par (jOf ms) nc (s.par b) := by
        apply subset_antisymm (cs_par h.par hJ b1 bn)
        intro c hc
        rw [bp, mem_cs] at hc
        exact mem_cs.2 ⟨hc.1, hno c hc.1 hc.2⟩
      have bne : (cs s.par (jOf ms) nc b).Nonempty := ⟨c, by rw [e, bp]; exact hc⟩
      have := (ht.kid b b1 bn bne).1 e
      have := (ht.desc_ok h.par hJ b1 bn bne).2.2.2.2
      have := h.par.2 b b1 bn
      rw [bp] at *
      omega
    · rintro ⟨⟨h1, hi⟩, ⟨c, hc, hca⟩, hk⟩
      refine ⟨⟨h1, by omega⟩, ?_⟩
      have hne : (cs s.par (jOf ms) nc i).Nonempty := ⟨c, mem_cs.2 ⟨hc, hca⟩⟩
      by_cases hb : ∃ b, 1 ≤ b ∧ b < s.n ∧ s.par b = i ∧ (cs s.par (jOf ms) nc b).Nonempty
      · obtain ⟨b, b1, bn, bp, bne⟩ := hb
        have := (ht.kid b b1 bn bne).2 (by
          intro e
          obtain ⟨c', c1, c2, c3⟩ := hk b b1 bn bp
          rw [bp] at e
          have : c' ∈ cs s.par (jOf ms) nc b := by rw [e]; exact mem_cs.2 ⟨c1, c2⟩
          exact c3 (mem_cs.1 this).2)
        rwa [bp] at this
      · exact ht.leaf i h1 hi hne fun b b1 bn bp => not_nonempty_iff_eq_empty.1 fun bne => hb ⟨b, b1, bn, bp, bne⟩

section
variable [LinearOrder K]

/-- **The Delassus matrix by the PV recursion.** For every model, configuration, set of contacts and damping `mu ≥ 0` such that
`M + mu Jᵀ J` is definite, whatever the rest of the data, the contact data and the output matrix held: the call succeeds; the
columns of `(M + mu Jᵀ J)⁻¹ Jᵀ` exist; and entry `(i, r), (k, c)` of the output, on and above the diagonal blocks, is row `(i, r)` of
`J` applied to column `(k, c)`. The blocks below the diagonal are left as they were. The hypothesis on the data holds again
afterwards, so that the same tables serve any number of calls. -/
theorem C82_delassus (h : s.Packed) (hq : s.At q) {mu : K} (hmu : 0 ≤ mu) (hms : ContactsOk s ms nc)
    (hdef : s.DampedDef q ms nc mu) {x : PData K} (hx : InvZero x) (cd : ℕ → OContact K) (D : ℕ → ℕ → K) :
    ∃ z : PSim K,
      computePvDelassusMatrix s ms nc (pvTables s ms nc) x cd q (conRow ms nc) (conRow ms nc) D mu = .ok () z ∧
      InvZero z.x ∧ (∀ k < nc, ∀ c < (ms k).type.dim, ∃ y, s.IsResponse q ms nc mu k c y) ∧
      (∀ i k, i ≤ k → k < nc → ∀ r < (ms i).type.dim, ∀ c < (ms k).type.dim, ∀ y, s.IsResponse q ms nc mu k c y →
        z.D (conRow ms i + r) (conRow ms k + c) = (s.conVel q (ms i) y).row r) ∧
      ∀ i k, i < k → k < nc → ∀ r < (ms k).type.dim, ∀ c < (ms i).type.dim,
        z.D (conRow ms k + r) (conRow ms i + c) = D (conRow ms k + r) (conRow ms i + c) := by
  have hJ : ∀ c < nc, 1 ≤ jOf ms c ∧ jOf ms c < s.n := fun k hk => ⟨(hms k hk).1, (hms k hk).2.1⟩
  obtain ⟨resp, z, e, h0, h1, h2, h3⟩ := pvDelassus_ok h hq hmu hms hdef (initPvDelassus_ok h.par hJ) x hx cd D
  refine ⟨z, e, fun r hr c hc => by rw [h0]; exact hx r hr c hc, fun k hk c hc => ⟨_, h1 k hk c hc⟩,
    fun i k hik hk r hr c hc y hy => ?_, fun i k hik hk r hr c hc => ?_⟩
  · rw [h2 i k hik hk r hr c hc, ← hy (resp i r), Sys.dampedForm_symm, h1 i (by omega) r hr]
  · apply h3
    rintro i' k' hik' hk' r' hr' c' hc' ⟨e1, e2⟩
    have := (conRow_inj ms hr hr' e1).1
    have := (conRow_inj ms hc hc' e2).1
    omega

/-- **The two algorithms agree**: on the same matrix, `computePvDelassusMatrix` and `computeDelassusMatrix` leave the same
entries. -/
theorem C82_agrees (h : s.Packed) (hq : s.At q) {mu : K} (hmu : 0 ≤ mu) (hms : ContactsOk s ms nc)
    (hdef : s.DampedDef q ms nc mu) {x : PData K} (hx : InvZero x) (cd : ℕ → OContact K) (x' : OData K)
    {cd' : ℕ → OContact K} (hl0 : LamZero ms nc cd') (D : ℕ → ℕ → K) :
    ∃ (z : PSim K) (z' : OSim K),
      computePvDelassusMatrix s ms nc (pvTables s ms nc) x cd q (conRow ms nc) (conRow ms nc) D mu = .ok () z ∧
      computeDelassusMatrix s ms nc x' cd' q (conRow ms nc) (conRow ms nc) D mu = .ok () z' ∧
      ∀ i < nc, ∀ k < nc, ∀ r < (ms i).type.dim, ∀ c < (ms k).type.dim,
        z.D (conRow ms i + r) (conRow ms k + c) = z'.D (conRow ms i + r) (conRow ms k + c) := by
  obtain ⟨z, e, -, h1, h2, h3⟩ := C82_delassus h hq hmu hms hdef hx cd D
  obtain ⟨z', e', -, -, h2', h3'⟩ := C76_delassus h hq hmu hms hdef x' hl0 D
  refine ⟨z, z', e, e', fun i hi k hk r hr c hc => ?_⟩
  rcases Nat.lt_or_ge k i with hlt | hge
  · rw [h3 k i hlt hi r hr c hc, h3' k i hlt hi r hr c hc]
  · obtain ⟨y, hy⟩ := h1 k hk c hc
    rw [h2 i k hge hk r hr c hc y hy, h2' i k hge hk r hr c hc y hy]

/-- a negative damping and a matrix of a wrong size are refused, before anything is written -/
theorem C82_refused (t : AccTab) (x : PData K) (cd : ℕ → OContact K) (rows cols : ℕ) (D : ℕ → ℕ → K) (mu : K)
    (hbad : mu < 0 ∨ rows ≠ conRow ms nc ∨ cols ≠ conRow ms nc) :
    computePvDelassusMatrix s ms nc t x cd q rows cols D mu = .throw () := by
  unfold computePvDelassusMatrix
  by_cases hmu : mu < 0
  · rw [if_pos (not_le.2 hmu)]
  · rw [if_neg (not_not.2 (not_lt.1 hmu)), if_pos (hbad.resolve_left hmu)]

variable [IsStrictOrderedRing K] [HasEps K]

/-- **The inverse of the damped Delassus matrix**, `Pv` being true by default. With `scaled = false` the matrix `X` stored on and
above the diagonal blocks is the inverse of `J M⁻¹ Jᵀ + mu I`: for every contact force `f` and the acceleration `y` it causes,
`X (J y + mu f) = f`. With `scaled = true` it is `mu` times this inverse. -/
theorem C82_damped_inverse (h : s.Packed) (hq : s.At q) (hH : s.Heavy q) (hms : ContactsOk s ms nc) {dummy mu : K}
    (hd : 0 < dummy) (hmu : dummy ≤ mu) {x : PData K} (hx : InvZero x) (cd : ℕ → OContact K) (D : ℕ → ℕ → K)
    (scaled : Bool) :
    ∃ z : PSim K, computeDampedDelassusMatrixInversePv dummy s ms nc (pvTables s ms nc) x cd q (conRow ms nc) (conRow ms nc) D mu
        scaled = .ok () z ∧
      ∀ (f : ℕ → ℕ → K) (y : ℕ → K), (∀ w, s.massForm q w y = s.conPower q ms nc f w) →
        ∀ i < nc, ∀ r < (ms i).type.dim,
          (∑ k ∈ range nc, ∑ c ∈ range (ms k).type.dim,
            blockEntry ms z.D i r k c * ((s.conVel q (ms k) y).row c + mu * f k c))
          = if scaled then mu * f i r else f i r := by
  have hm : 0 < mu := lt_of_lt_of_le hd hmu
  have hmi : 0 ≤ 1 / mu := by positivity
  let cd' : ℕ → OContact K := fun _ => ⟨1, fun _ _ => 0, fun _ _ => 0⟩
  have hl0 : LamZero ms nc cd' := fun _ _ _ _ => rfl
  obtain ⟨z, z', e, e', h1⟩ := C82_agrees h hq hmi hms (C76_definite h hH hmi ms nc) hx cd x.od hl0 D
  obtain ⟨y', f', g'⟩ := C76_damped_inverse h hq hH hms hd hmu x.od hl0 D scaled
  unfold computeDampedDelassusMatrixInverse at f'
  unfold computeDampedDelassusMatrixInversePv
  rw [if_neg (not_not.2 hmu)] at f' ⊢
  dsimp only at f' ⊢
  rw [e'] at f'
  rw [e]
  obtain rfl := (Res.ok.inj f').2
  refine ⟨_, rfl, fun f y hy i hi r hr => ?_⟩
  rw [← g' f y hy i hi r hr]
  apply sum_congr rfl
  intro k hk
  apply sum_congr rfl
  intro c hc
  congr 1
  have a1 := h1 i hi k (mem_range.1 hk) r hr c (mem_range.1 hc)
  have a2 := h1 k (mem_range.1 hk) i hi c (mem_range.1 hc) r hr
  unfold blockEntry
  cases scaled <;> simp only [a1, a2, if_true, if_false, Bool.false_eq_true]

end

/-! ## the hypotheses are met -/

namespace Ex
/-- the data of `sysY`, with values left by something else -/
def pdY : PData ℚ := ⟨odZ, fun _ _ => ⟨⟨7, 7, 7⟩, ⟨7, 7, 7⟩⟩, fun _ _ => ⟨⟨7, 7, 7⟩, ⟨7, 7, 7⟩⟩, fun i _ _ => if i = 0 then 0 else 7⟩
/-- the matrix of a call that succeeds -/
def pvMatrix : Res Unit (PSim ℚ) → Option (ℕ → ℕ → ℚ)
  | .ok _ z => some z.D
  | _ => none
end Ex

example : Ex.sysY.Packed ∧ Ex.sysY.At (fun _ => 1) ∧ Ex.sysY.Heavy (fun _ => 1) ∧ ContactsOk Ex.sysY Ex.msY 2 ∧
    Ex.sysY.DampedDef (fun _ => 1) Ex.msY 2 (1 / 3) ∧ InvZero Ex.pdY ∧ (pvTables Ex.sysY Ex.msY 2).joints = [1, 2, 3] := by
  refine ⟨Ex.sysY_packed, ⟨fun _ _ _ => SE3.valid_one, fun _ _ _ => jPrismatic_ok _ _⟩, Ex.sysY_heavy _, ?_,
    C76_definite Ex.sysY_packed (Ex.sysY_heavy _) (by norm_num) _ _, fun _ _ _ _ => rfl, by decide +kernel⟩
  intro k hk
  interval_cases k
  · exact ⟨by decide, by decide, M3.IsRot.one⟩
  · exact ⟨by decide, by decide, SE3.valid_one⟩

/-! ## finding -/

set_option maxRecDepth 100000 in
/-- `initPvDelassus` (`delassus.hxx:290-368`) clears the sizes but not `accumulation_joints`: a second call on the same data, for
the same contacts, lists each accumulation joint twice, and `computePvDelassusMatrix` then adds the terms of the ancestors twice.
The first entry is 12/43 instead of 6/43. -/
theorem C82_reinit_counterexample :
    let t1 := initPvDelassus Ex.sysY.par Ex.sysY.n Ex.msY 2 AccTab.new
    let t2 := initPvDelassus Ex.sysY.par Ex.sysY.n Ex.msY 2 t1
    t1.joints = [1, 2, 3] ∧ t2.joints = [1, 2, 3, 1, 2, 3] ∧
    ((Ex.pvMatrix (computePvDelassusMatrix Ex.sysY Ex.msY 2 t1 Ex.pdY Ex.cdZ (fun _ => 1) 9 9 (fun _ _ => 0) (1 / 3))).map
      fun D => D 0 0) = some (6 / 43) ∧
    ((Ex.pvMatrix (computePvDelassusMatrix Ex.sysY Ex.msY 2 t2 Ex.pdY Ex.cdZ (fun _ => 1) 9 9 (fun _ _ => 0) (1 / 3))).map
      fun D => D 0 0) = some (12 / 43) := by
  decide +kernel

end Pin
