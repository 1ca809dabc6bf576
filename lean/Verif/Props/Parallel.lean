import Verif.Geom.Lemmas
import Verif.Par.Lemmas
import Verif.Props.ForwardDynamics
import Verif.Props.Kinematics

/-!
# C33, C34, C35: parallel evaluation and pools

Executions are sequences of `PStep` (resp. `CStep`), where at each step any thread may move (`Par/Defs`). `ReflTransGen` is
Mathlib's reflexive transitive closure.
-/

namespace Pin
open Relation Finset

/-! ## C33 -/
section C33
universe u
variable {K : Type u} [Field K] {s : Sys K}

/-- **C33, `rneaInParallel`.** Whatever the number of threads, the interleaving, the previous content of the datas of the
pool and of the result, once the loop is over column `i` of the result holds what `rnea` gives for column `i` of the
arguments, in a data of any content; other columns are as they were. The models that the threads read are equal to `s`. -/
theorem C33_rnea {T n : ℕ} (models : ℕ → Sys K) (hm : ∀ t < T, models t = s) (hw : s.WF) (q v a : ℕ → ℕ → K)
    (hq : ∀ i < n, s.At (q i)) {σ σ' : PState (Data K) (ℕ → K)} (hi : σ.Init n)
    (hr : ReflTransGen (PStep T (fun t i => rneaSteps (models t) (q i) (v i) (a i)) Data.tau) σ σ') (hf : σ'.Final) :
    (∀ i < n, ∀ (d : Data K), ∀ r < s.nv, σ'.res i r = (rnea s d (q i) (v i) (a i)).tau r) ∧
    ∀ i, n ≤ i → σ'.res i = σ.res i := by
  refine ⟨fun i hin d r hrv => ?_, fun i hin => PState.outside hi hr hin⟩
  obtain ⟨t, ht, d', e⟩ := (PInv.reach hi hr).final hf hin
  simp only [rneaSteps_eq, hm t ht] at e
  rw [e]
  exact Sys.dotv_ext (fun w => by rw [rnea_power hw d' (hq i hin), rnea_power hw d (hq i hin)]) hrv

/-- **C33, `abaInParallel`**: same statement, for the forward dynamics (`aba` in the world convention), wherever the pivots
of the algorithm are invertible. -/
theorem C33_aba {T n : ℕ} (models : ℕ → Sys K) (hm : ∀ t < T, models t = s) (h : s.Packed) (q v tau : ℕ → ℕ → K)
    (hq : ∀ i < n, s.At (q i)) (hR : ∀ i < n, s.Regular (q i)) {σ σ' : PState (Data K) (ℕ → K)} (hi : σ.Init n)
    (hr : ReflTransGen (PStep T (fun t i => abaSteps (models t) (q i) (v i) (tau i)) Data.ddq) σ σ') (hf : σ'.Final) :
    (∀ i < n, ∀ (d : Data K), ∀ r < s.nv, σ'.res i r = (abaWorld s d (q i) (v i) (tau i)).ddq r) ∧
    ∀ i, n ≤ i → σ'.res i = σ.res i := by
  refine ⟨fun i hin d r hrv => ?_, fun i hin => PState.outside hi hr hin⟩
  obtain ⟨t, ht, d', e⟩ := (PInv.reach hi hr).final hf hin
  simp only [abaSteps_eq, hm t ht] at e
  rw [e, ← (C16_conventions h (hq i hin) (hR i hin) Data.zero d' (v i) (tau i) (fun _ => 0) hrv).1,
    (C16_conventions h (hq i hin) (hR i hin) Data.zero d (v i) (tau i) (fun _ => 0) hrv).1]

/-- **C33, the loop ends.** For any body: no execution is infinite, none is stuck before the end if there is at least one
thread, and only the datas of the threads are touched. -/
theorem C33_ends {D R : Type*} {T n : ℕ} (steps : ℕ → ℕ → List (D → D)) (out : D → R) {σ : PState D R} (hi : σ.Init n) :
    (¬ ∃ f : ℕ → PState D R, f 0 = σ ∧ ∀ k, PStep T steps out (f k) (f (k + 1))) ∧
    (0 < T → ∀ σ', ReflTransGen (PStep T steps out) σ σ' → ¬ σ'.Final → ∃ σ'', PStep T steps out σ' σ'') ∧
    (∀ σ', ReflTransGen (PStep T steps out) σ σ' → ∀ t, T ≤ t → σ'.datas t = σ.datas t) := by
  refine ⟨?_, ?_, ?_⟩
  · exact no_descent (P := fun x => PInv T n steps out x) (PState.left T n steps)
      (fun a b ha hab => ha.step hab) (fun a b ha hab => PState.left_lt ha.range hab) (PInv.init hi)
  · intro hT σ' hr hf
    exact PState.progress hT (fun t i l e => ((PInv.reach hi hr).work t i l e).1) hf
  · intro σ' hr t ht
    exact PState.other_data hr ht

/-- **C33, arguments.** `rneaInParallel` accepts its arguments exactly when the pool is not empty and has a data for each
thread, the four matrices have the number of rows of the model and the same number of columns. -/
theorem C33_rnea_checks (pool threads nq nv : ℕ) (q v a tau : Dims) :
    rneaParChecks pool threads nq nv q v a tau = true ↔
      0 < pool ∧ threads ≤ pool ∧ q.rows = nq ∧ v.rows = nv ∧ a.rows = nv ∧ tau.rows = nv ∧
      v.cols = q.cols ∧ a.cols = q.cols ∧ tau.cols = q.cols := by
  unfold rneaParChecks
  simp only [Bool.and_eq_true, decide_eq_true_eq, beq_iff_eq]
  constructor
  · rintro ⟨⟨⟨⟨⟨⟨⟨⟨h1, h2⟩, h3⟩, h4⟩, h5⟩, h6⟩, h7⟩, h8⟩, h9⟩
    exact ⟨h1, h2, h3, h4, h5, h6, h7.symm, h8.symm, h9.symm⟩
  · rintro ⟨h1, h2, h3, h4, h5, h6, h7, h8, h9⟩
    exact ⟨⟨⟨⟨⟨⟨⟨⟨h1, h2⟩, h3⟩, h4⟩, h5⟩, h6⟩, h7.symm⟩, h8.symm⟩, h9.symm⟩

/-- **`abaInParallel` does not check `tau`**: whatever its size the call is accepted, whereas the other arguments are
checked. The loop then reads `tau.col(i)` outside the matrix. -/
theorem C33_aba_checks_counterexample (tau : Dims) :
    abaParChecks 2 2 7 6 ⟨7, 10⟩ ⟨6, 10⟩ tau ⟨6, 10⟩ = true ∧
    abaParChecks 2 2 7 6 ⟨7, 10⟩ ⟨5, 10⟩ tau ⟨6, 10⟩ = false := ⟨rfl, rfl⟩
end C33

/-- C33 is not vacuous: from any start the end is reached -/
theorem C33_reached {D R : Type*} {T n : ℕ} (hT : 0 < T) (steps : ℕ → ℕ → List (D → D)) (out : D → R) {σ : PState D R}
    (hi : σ.Init n) : ∃ σ', ReflTransGen (PStep T steps out) σ σ' ∧ σ'.Final := by
  have key : ∀ (N : ℕ) (x : PState D R), ReflTransGen (PStep T steps out) σ x → x.left T n steps ≤ N →
      ∃ σ', ReflTransGen (PStep T steps out) σ σ' ∧ σ'.Final := by
    intro N
    induction N with
    | zero =>
      intro x hx hl
      by_cases hf : x.Final
      · exact ⟨x, hx, hf⟩
      · obtain ⟨y, hy⟩ := (C33_ends steps out hi).2.1 hT x hx hf
        have := PState.left_lt (PInv.reach hi hx).range hy
        omega
    | succ N ih =>
      intro x hx hl
      by_cases hf : x.Final
      · exact ⟨x, hx, hf⟩
      · obtain ⟨y, hy⟩ := (C33_ends steps out hi).2.1 hT x hx hf
        have := PState.left_lt (PInv.reach hi hx).range hy
        exact ih y (hx.tail hy) (by omega)
  exact key _ σ .refl (le_refl _)

/-- three threads, seven columns, datas of different contents -/
example : ∃ σ σ' : PState (Data ℚ) (ℕ → ℚ), σ.Init 7 ∧ σ'.Final ∧ σ.datas 0 ≠ σ.datas 1 ∧
    ReflTransGen (PStep 3 (fun _ _ => rneaSteps Ex.sysA Ex.qA Ex.vA Ex.vA) Data.tau) σ σ' ∧ Ex.sysA.Packed ∧
    Ex.sysA.At Ex.qA ∧ Ex.sysA.Regular Ex.qA := by
  have hi : (⟨{i | i < 7}, fun t => if t = 0 then Data.zero else { Data.zero with tau := fun _ => 1 }, fun _ _ => 0,
    fun _ => .idle⟩ : PState (Data ℚ) (ℕ → ℚ)).Init 7 := ⟨rfl, fun _ => rfl⟩
  obtain ⟨σ', h1, h2⟩ := C33_reached (T := 3) (by decide) (fun _ _ => rneaSteps Ex.sysA Ex.qA Ex.vA Ex.vA) Data.tau hi
  refine ⟨_, σ', hi, h2, fun h => ?_, h1, Ex.sysA_packed, Ex.sysA_at, Ex.sysA_regular⟩
  have := congrFun (congrArg Data.tau h) 0
  exact absurd this (by decide)

/-- an interleaved execution of a loop with two iterations of two steps each -/
example : ∃ σ σ' : PState ℕ ℕ, σ.Init 2 ∧ σ'.Final ∧ σ'.res 0 = 11 ∧ σ'.res 1 = 21 ∧
    ReflTransGen (PStep 2 (fun _ i => [fun _ => 10 * (i + 1), fun d => d + 1]) id) σ σ' := by
  refine ⟨⟨{i | i < 2}, fun t => t, fun _ => 0, fun _ => .idle⟩, _, ⟨rfl, fun _ => rfl⟩, ?_, ?_, ?_,
    .tail (.tail (.tail (.tail (.tail (.tail (.tail (.tail .refl
      (.take _ 0 0 (by decide) rfl (by simp)))
      (.take _ 1 1 (by decide) rfl (by simp)))
      (.work _ 1 1 _ _ (by decide) rfl))
      (.work _ 0 0 _ _ (by decide) rfl))
      (.work _ 1 1 _ _ (by decide) rfl))
      (.write _ 1 1 (by decide) rfl))
      (.work _ 0 0 _ _ (by decide) rfl))
      (.write _ 0 0 (by decide) rfl)⟩
  · refine ⟨?_, fun t => ?_⟩
    · ext x; simp; omega
    · by_cases h0 : t = 0
      · subst h0; rfl
      · by_cases h1 : t = 1
        · subst h1; rfl
        · simp only [upd_ne _ _ h0, upd_ne _ _ h1]
  · rfl
  · rfl

/-! ## C34 -/

/-- a change of the size of a pool, or of its datas -/
inductive PoolOp (D : Type*)
  | resize (n : ℕ)
  | update (d : D)

/-- the pool after a call -/
def PoolOp.exec {M D : Type*} (m0 : M) (d0 : D) (p : Pool M D) : PoolOp D → Pool M D
  | .resize n => p.resize m0 d0 n
  | .update d => p.update d

/-- **C34, what `resize` does.** The pool has the new size; when it shrinks the first entries are kept; when it grows from
`size` to `n`, entries from `n - size` on are copies of entry 0 (of a default-constructed object if there was none), those
below are kept, and those below `n - size` and not below `size` are default-constructed. -/
theorem C34_resize {M D : Type*} (m0 : M) (d0 : D) (p : Pool M D) (hl : p.models.length = p.datas.length) (n : ℕ) :
    (p.resize m0 d0 n).models.length = n ∧ (p.resize m0 d0 n).datas.length = n ∧
    ∀ k < n, (p.resize m0 d0 n).models[k]? = some
        (if p.datas.length < n ∧ n - p.datas.length ≤ k then p.models[0]?.getD m0 else p.models[k]?.getD m0) ∧
      (p.resize m0 d0 n).datas[k]? = some
        (if p.datas.length < n ∧ n - p.datas.length ≤ k then p.datas[0]?.getD d0 else p.datas[k]?.getD d0) := by
  unfold Pool.resize
  by_cases h : p.datas.length < n
  · simp only [h, if_true, true_and]
    refine ⟨by rw [Pool.length_fillFrom, Pool.length_resizeVec], by rw [Pool.length_fillFrom, Pool.length_resizeVec],
      fun k hk => ?_⟩
    rw [Pool.getElem?_fillFrom, Pool.getElem?_fillFrom, Pool.length_resizeVec, Pool.length_resizeVec, if_pos hk, if_pos hk]
    simp only [Pool.getElem?_resizeVec, hk, if_true, show 0 < n by omega]
    constructor <;> split <;> rfl
  · simp only [h, if_false, false_and]
    refine ⟨Pool.length_resizeVec .., Pool.length_resizeVec .., fun k hk => ?_⟩
    rw [Pool.getElem?_resizeVec, Pool.getElem?_resizeVec, if_pos hk, if_pos hk]
    exact ⟨rfl, rfl⟩

/-- every growth of the history at most doubles the size -/
def Doubling {D : Type*} : ℕ → List (PoolOp D) → Prop
  | _, [] => True
  | size, .resize n :: l => n ≤ 2 * size ∧ Doubling n l
  | size, .update _ :: l => Doubling size l

/-- **C34, partial.** Along every history of `resize` and `update` in which each growth at most doubles the size, every
model of the pool is the model it was built from, and every data has any property that the data built from the model and
the datas passed to `update` have. Missing: growth to more than twice the size, for which the claim is false
(`C34_counterexample`), and that existing entries are kept, which is false too (`C34_overwrites`). -/
theorem C34_partial {M D : Type*} (m0 : M) (d0 : D) (mk : M → D) (m : M) (size : ℕ) (P : D → Prop) (hm : P (mk m))
    (ops : List (PoolOp D)) (hu : ∀ d, .update d ∈ ops → P d) (hd : Doubling size ops) :
    let p := ops.foldl (PoolOp.exec m0 d0) (Pool.ofModel mk m size)
    p.models.length = p.datas.length ∧ (∀ x ∈ p.models, x = m) ∧ ∀ x ∈ p.datas, P x := by
  have key : ∀ (ops : List (PoolOp D)) (p : Pool M D), (∀ d, .update d ∈ ops → P d) → Doubling p.datas.length ops →
      p.models.length = p.datas.length → (∀ x ∈ p.models, x = m) → (∀ x ∈ p.datas, P x) →
      (ops.foldl (PoolOp.exec m0 d0) p).models.length = (ops.foldl (PoolOp.exec m0 d0) p).datas.length ∧
      (∀ x ∈ (ops.foldl (PoolOp.exec m0 d0) p).models, x = m) ∧ ∀ x ∈ (ops.foldl (PoolOp.exec m0 d0) p).datas, P x := by
    intro ops
    induction ops with
    | nil => intro p _ _ h1 h2 h3; exact ⟨h1, h2, h3⟩
    | cons op ops ih =>
      intro p hu hd h1 h2 h3
      rw [List.foldl_cons]
      cases op with
      | update d =>
        have hP := hu d (List.mem_cons_self ..)
        apply ih
        · exact fun d' hd' => hu d' (List.mem_cons_of_mem _ hd')
        · simpa [PoolOp.exec, Pool.update, Doubling] using hd
        · simpa [PoolOp.exec, Pool.update] using h1
        · exact h2
        · intro x hx
          have := List.eq_of_mem_replicate hx
          exact this ▸ hP
      | resize n =>
        obtain ⟨l1, l2, l3⟩ := C34_resize m0 d0 p h1 n
        simp only [Doubling] at hd
        -- an entry of the new pool is an entry of the old one
        have old : ∀ k < n, ∃ j < p.datas.length,
            (p.resize m0 d0 n).models[k]? = p.models[j]? ∧ (p.resize m0 d0 n).datas[k]? = p.datas[j]? := by
          intro k hk
          obtain ⟨a, b⟩ := l3 k hk
          by_cases hg : p.datas.length < n ∧ n - p.datas.length ≤ k
          · have h0 : 0 < p.datas.length := by omega
            refine ⟨0, h0, ?_, ?_⟩
            · rw [a, if_pos hg, List.getElem?_eq_getElem (by omega)]; rfl
            · rw [b, if_pos hg, List.getElem?_eq_getElem h0]; rfl
          · have hk' : k < p.datas.length := by
              by_contra hc; exact hg ⟨by omega, by omega⟩
            refine ⟨k, hk', ?_, ?_⟩
            · rw [a, if_neg hg, List.getElem?_eq_getElem (by omega)]; rfl
            · rw [b, if_neg hg, List.getElem?_eq_getElem hk']; rfl
        apply ih
        · exact fun d' hd' => hu d' (List.mem_cons_of_mem _ hd')
        · simp only [PoolOp.exec, l2]; exact hd.2
        · simp only [PoolOp.exec, l1, l2]
        · intro x hx
          obtain ⟨k, hk, rfl⟩ := List.getElem_of_mem hx
          simp only [PoolOp.exec] at hk ⊢
          obtain ⟨j, hj, e, _⟩ := old k (by omega)
          rw [List.getElem?_eq_getElem hk, List.getElem?_eq_getElem (by omega)] at e
          rw [Option.some.inj e]; exact h2 _ (List.getElem_mem _)
        · intro x hx
          obtain ⟨k, hk, rfl⟩ := List.getElem_of_mem hx
          simp only [PoolOp.exec] at hk ⊢
          obtain ⟨j, hj, _, e⟩ := old k (by omega)
          rw [List.getElem?_eq_getElem hk, List.getElem?_eq_getElem hj] at e
          rw [Option.some.inj e]; exact h3 _ (List.getElem_mem _)
  exact key ops _ hu (by simpa [Pool.ofModel] using hd) (by simp [Pool.ofModel])
    (fun x hx => List.eq_of_mem_replicate hx) (fun x hx => by
      have := List.eq_of_mem_replicate hx
      exact this ▸ hm)

/-- **C34 is false.** Whatever the model, a pool of `size ≥ 1` copies of it that is grown to more than twice its size
contains a default-constructed model (and data). -/
theorem C34_counterexample {M D : Type*} (m0 : M) (d0 : D) (mk : M → D) (m : M) {size n : ℕ} (h1 : 1 ≤ size)
    (hn : 2 * size < n) :
    m0 ∈ ((Pool.ofModel mk m size).resize m0 d0 n).models ∧ d0 ∈ ((Pool.ofModel mk m size).resize m0 d0 n).datas := by
  obtain ⟨_, _, h⟩ := C34_resize m0 d0 (Pool.ofModel mk m size) (by simp [Pool.ofModel]) n
  have hl : (Pool.ofModel mk m size).datas.length = size := by simp [Pool.ofModel]
  obtain ⟨a, b⟩ := h size (by omega)
  have e1 : (Pool.ofModel mk m size).models[size]? = none := List.getElem?_eq_none (by simp [Pool.ofModel])
  have e2 : (Pool.ofModel mk m size).datas[size]? = none := List.getElem?_eq_none (by simp [Pool.ofModel])
  rw [hl, if_neg (by omega), e1] at a
  rw [hl, if_neg (by omega), e2] at b
  exact ⟨List.mem_of_getElem? a, List.mem_of_getElem? b⟩

/-- **Existing entries are overwritten.** A pool with two datas grown to three: the second is replaced by the first, the
third is a copy of the first. -/
theorem C34_overwrites {M D : Type*} (m0 m m' : M) (d0 x y : D) :
    (Pool.mk [m, m'] [x, y]).resize m0 d0 3 = ⟨[m, m, m], [x, x, x]⟩ := rfl

/-- **The geometry pool is not completed at all**: grown, its new geometry models and geometry datas are
default-constructed, whatever the sizes. -/
theorem C34_geometry_counterexample {M D G H : Type*} (m0 : M) (d0 : D) (g0 : G) (h0 : H) (mk : M → D) (mkG : G → H) (m : M)
    (g : G) (size n : ℕ) {k : ℕ} (h1 : size ≤ k) (h2 : k < n) :
    ((GeomPool.ofModel mk mkG m g size).resize m0 d0 g0 h0 mkG n).gmodels[k]? = some g0 ∧
    ((GeomPool.ofModel mk mkG m g size).resize m0 d0 g0 h0 mkG n).gdatas[k]? = some h0 := by
  have hl : ((Pool.ofModel mk m size).resize m0 d0 n).datas.length = n :=
    (C34_resize m0 d0 (Pool.ofModel mk m size) (by simp [Pool.ofModel]) n).2.1
  unfold GeomPool.resize
  simp only [GeomPool.ofModel, hl, lt_irrefl, if_false]
  rw [Pool.getElem?_resizeVec, Pool.getElem?_resizeVec, if_pos h2, if_pos h2, List.getElem?_eq_none (by simpa),
    List.getElem?_eq_none (by simpa)]
  exact ⟨rfl, rfl⟩

/-- C34 is not vacuous -/
example : Doubling 2 [.resize 4, .update "x", .resize 8, .resize 1] ∧
    (([.resize 4, .update "x", .resize 3] : List (PoolOp String)).foldl (PoolOp.exec 0 "") (Pool.ofModel (fun _ => "d") 7 2))
      = ⟨[7, 7, 7], ["x", "x", "x"]⟩ := ⟨by simp [Doubling], rfl⟩

example : (Pool.ofModel (fun _ => "d") 7 1).resize 0 "" 3 = ⟨[7, 0, 7], ["d", "", "d"]⟩ := rfl

/-! ## C35 -/

/-- **C35, the sequential query.** `computeCollisions` returns true exactly when some enabled pair collides, and
`collisionPairIndex` is then the first of them, and is otherwise unchanged. Without stop the results of the enabled pairs
are those of the collision library; with stop those up to the first collision are; the others are unchanged. -/
theorem C35_sequential (enabled col : ℕ → Bool) (stop : Bool) (n idx : ℕ) (results : ℕ → Bool) :
    let r := computeCollisions enabled col stop n idx results
    (r.colliding = true ↔ ∃ k < n, enabled k = true ∧ col k = true) ∧
    (∀ k < n, enabled k = true ∧ col k = true → (∀ j < k, ¬ (enabled j = true ∧ col j = true)) → r.idx = k) ∧
    ((∀ k < n, ¬ (enabled k = true ∧ col k = true)) → r.idx = idx) ∧
    (∀ k, r.results k = if k < n ∧ enabled k = true ∧
        (stop = true → ∀ j < k, ¬ (enabled j = true ∧ col j = true)) then col k else results k) := by
  intro r
  obtain ⟨a, _, b, c, d, e⟩ := ccLoop_spec enabled col stop (List.range n) ⟨false, idx, results⟩
  refine ⟨?_, ?_, ?_, ?_⟩
  · rw [show r = ccLoop enabled col stop (List.range n) ⟨false, idx, results⟩ from rfl, a]
    simp
  · intro k hk hc hmin
    apply (b rfl).1
    rw [List.find?_range_eq_some]
    exact ⟨by simpa using hc, List.mem_range.2 hk, fun j hj => by
      have := hmin j hj
      cases h1 : enabled j <;> cases h2 : col j <;> simp_all⟩
  · intro hn
    apply (b rfl).2
    rw [List.find?_eq_none]
    intro k hk; simpa using hn k (List.mem_range.1 hk)
  · intro k
    cases stop with
    | false =>
      by_cases hk : k < n ∧ enabled k = true
      · rw [if_pos ⟨hk.1, hk.2, by simp⟩]
        exact c rfl k ⟨List.mem_range.2 hk.1, hk.2⟩
      · rw [if_neg (fun hh => hk ⟨hh.1, hh.2.1⟩)]
        exact d k (fun hh => hk ⟨List.mem_range.1 hh.1, hh.2⟩)
    | true =>
      have := e rfl rfl k
      rw [show r.results k = _ from this]
      apply if_congr _ rfl rfl
      rw [List.take_range, List.mem_range, lt_min_iff]
      constructor
      · rintro ⟨h1, h2, h3⟩
        refine ⟨h3, h1, fun _ j hj hc => ?_⟩
        have hlt : j < (List.range n).findIdx (fun k => enabled k && col k) := by omega
        have := List.not_of_lt_findIdx hlt
        simp [hc.1, hc.2] at this
      · rintro ⟨h1, h2, h3⟩
        refine ⟨h2, ?_, h1⟩
        by_contra hc
        have hlt : (List.range n).findIdx (fun k => enabled k && col k) < k := by omega
        have hlen : (List.range n).findIdx (fun k => enabled k && col k) < (List.range n).length := by
          rw [List.length_range]; omega
        have := List.findIdx_getElem (p := fun k => enabled k && col k) (xs := List.range n) (w := hlen)
        rw [List.getElem_range] at this
        exact h3 rfl _ hlt (by simpa using this)

/-- **C35, the parallel query.** For every number of threads and every interleaving, once the loop over the pairs is over
`computeCollisionsInParallel` returns true exactly when some enabled pair collides; `collisionPairIndex` is then an enabled
pair in collision; and without stop every result is the one of the sequential query. -/
theorem C35_parallel {T n : ℕ} (enabled col : ℕ → Bool) (stop : Bool) {σ σ' : CPar} (hi : σ.Init n)
    (hr : ReflTransGen (CStep T enabled col stop true) σ σ') (hf : σ'.Final) :
    (σ'.colliding = true ↔ ∃ k < n, enabled k = true ∧ col k = true) ∧
    (σ'.colliding = true → σ'.idx < n ∧ enabled σ'.idx = true ∧ col σ'.idx = true) ∧
    (∀ k, (σ'.results k = σ.results k) ∨ (k < n ∧ enabled k = true ∧ σ'.results k = col k)) ∧
    (stop = false → ∀ k, σ'.results k = (computeCollisions enabled col stop n σ.idx σ.results).results k) := by
  have h := CInv.reach hi hr
  refine ⟨⟨h.sound, ?_⟩, ?_, h.res, ?_⟩
  · rintro ⟨k, hk, hc⟩
    rcases h.cover k hk with hh | ⟨t, ht⟩ | hh | hh
    · rw [hf.1] at hh; exact absurd hh (Set.notMem_empty _)
    · rw [hf.2 t] at ht; simp [At35.On] at ht
    · exact hh
    · exact absurd hc hh
  · intro hc
    rcases h.index hc with hh | ⟨t, k, ht⟩
    · exact hh
    · rw [hf.2 t] at ht; cases ht
  · rintro rfl k
    rw [(C35_sequential enabled col false n σ.idx σ.results).2.2.2 k]
    by_cases hk : k < n ∧ enabled k = true
    · rw [if_pos ⟨hk.1, hk.2, by simp⟩]
      rcases h.done k hk.1 hk.2 with hh | ⟨t, ht⟩ | hh | hh
      · rw [hf.1] at hh; exact absurd hh (Set.notMem_empty _)
      · rw [hf.2 t] at ht; simp at ht
      · exact hh
      · cases hh.1
    · rw [if_neg (fun hh => hk ⟨hh.1, hh.2.1⟩)]
      rcases h.res k with hh | hh
      · exact hh
      · exact absurd ⟨hh.1, hh.2.1⟩ hk

/-- **C35, the loop ends** -/
theorem C35_ends {T n : ℕ} (enabled col : ℕ → Bool) (stop recheck : Bool) {σ : CPar} (hi : σ.Init n) :
    (¬ ∃ f : ℕ → CPar, f 0 = σ ∧ ∀ k, CStep T enabled col stop recheck (f k) (f (k + 1))) ∧
    (0 < T → ∀ σ', ReflTransGen (CStep T enabled col stop recheck) σ σ' → ¬ σ'.Final →
      ∃ σ'', CStep T enabled col stop recheck σ' σ'') := by
  refine ⟨?_, ?_⟩
  · exact no_descent (P := fun x => CInv n enabled col stop σ.results x) (CPar.left T n)
      (fun a b ha hab => ha.step hab) (fun a b ha hab => CPar.left_lt ha.todo hab) (CInv.init hi)
  · intro hT σ' hr hf
    exact CPar.progress hT (CPar.live hi hr) hf

/-- **`collisionPairIndex` depends on the schedule**: two pairs in collision, two threads; the sequential query reports pair
0 (the code says "first pair to be in collision"), an execution where the thread of pair 1 is faster reports pair 1, and
there is one where both threads see the flag down and the index is written twice. -/
theorem C35_index_counterexample :
    (computeCollisions (fun _ => true) (fun _ => true) false 2 9 (fun _ => false)).idx = 0 ∧
    ∃ σ σ' : CPar, σ.Init 2 ∧ ReflTransGen (CStep 2 (fun _ => true) (fun _ => true) false true) σ σ' ∧ σ'.Final ∧
      σ'.idx = 1 := by
  refine ⟨rfl, ⟨{k | k < 2}, false, 9, fun _ => false, fun _ => .idle⟩, _, ⟨rfl, rfl, fun _ => rfl⟩,
    .tail (.tail (.tail (.tail (.tail (.tail (.tail (.tail (.tail (.tail .refl
      (.take _ 0 0 (by decide) rfl (by simp)))
      (.take _ 1 1 (by decide) rfl (by simp)))
      (.pass _ 1 1 (by decide) rfl (by simp)))
      (.compute _ 1 1 (by decide) rfl rfl))
      (.see _ 1 1 true (by decide) rfl ⟨rfl, fun _ => rfl⟩))
      (.flag _ 1 1 (by decide) rfl))
      (.index _ 1 1 (by decide) rfl))
      (.pass _ 0 0 (by decide) rfl (by simp)))
      (.compute _ 0 0 (by decide) rfl rfl))
      (.pass2 _ 0 0 true (by decide) rfl (by simp)), ⟨?_, fun t => ?_⟩, rfl⟩
  · ext x; simp; omega
  · by_cases h0 : t = 0
    · subst h0; rfl
    · by_cases h1 : t = 1
      · subst h1; rfl
      · simp only [upd_ne _ _ h0, upd_ne _ _ h1]

/-- **C35, batch that stops at the first collision.** (`computeCollisionsInParallel` over configurations with
`stopAtFirstCollisionInBatch`: pairs are replaced by configurations, `col i` is the result of the query for configuration
`i`, see `C35_batch`.) For every interleaving, a configuration is reported in collision only if it is, and some
configuration is reported exactly when there is one. -/
theorem C35_batch_stop {T n : ℕ} (col : ℕ → Bool) {σ σ' : CPar} (hi : σ.Init n) (h0 : ∀ k, σ.results k = false)
    (hr : ReflTransGen (CStep T (fun _ => true) col true false) σ σ') (hf : σ'.Final) :
    (∀ k, σ'.results k = true → k < n ∧ col k = true) ∧
    ((∃ k < n, σ'.results k = true) ↔ ∃ k < n, col k = true) := by
  have h := CInv.reach hi hr
  have h2 := CInv2.reach hi hr
  have hs : ∀ k, σ'.results k = true → k < n ∧ col k = true := by
    intro k hk
    rcases h.res k with hh | hh
    · rw [hh, h0] at hk; cases hk
    · exact ⟨hh.1, by rw [← hh.2.2]; exact hk⟩
  refine ⟨hs, ?_⟩
  constructor
  · rintro ⟨k, hk, hh⟩; exact ⟨k, hk, (hs k hh).2⟩
  · rintro ⟨k, hk, hh⟩
    rcases h.cover k hk with hc | ⟨t, ht⟩ | hc | hc
    · rw [hf.1] at hc; exact absurd hc (Set.notMem_empty _)
    · rw [hf.2 t] at ht; simp [At35.On] at ht
    · obtain ⟨j, hj, _⟩ := h2.raised hc
      exact ⟨j, (hs j hj).1, hj⟩
    · exact absurd ⟨rfl, hh⟩ hc

/-- which configurations are reported then depends on the schedule: two configurations in collision, only the first one
reported, or only the second one. -/
theorem C35_batch_stop_counterexample : ∀ b : Bool, ∃ σ σ' : CPar, σ.Init 2 ∧ (∀ k, σ.results k = false) ∧
    ReflTransGen (CStep 2 (fun _ => true) (fun _ => true) true false) σ σ' ∧ σ'.Final ∧
    σ'.results 0 = b ∧ σ'.results 1 = !b := by
  have run : ∀ x y : ℕ, x < 2 → y < 2 → x ≠ y → ∃ σ σ' : CPar, σ.Init 2 ∧ (∀ k, σ.results k = false) ∧
      ReflTransGen (CStep 2 (fun _ => true) (fun _ => true) true false) σ σ' ∧ σ'.Final ∧
      σ'.results x = true ∧ σ'.results y = false := by
    intro x y hx hy hxy
    refine ⟨⟨{k | k < 2}, false, 9, fun _ => false, fun _ => .idle⟩, _, ⟨rfl, rfl, fun _ => rfl⟩, fun _ => rfl,
      .tail (.tail (.tail (.tail (.tail (.tail (.tail (.tail .refl
        (.take _ x x hx rfl hx))
        (.take _ y y hy (by simp only [upd_ne _ _ hxy.symm]) ⟨hy, hxy.symm⟩))
        (.pass _ x x hx (by simp only [upd_ne _ _ hxy, upd_self]) (by simp)))
        (.compute _ x x hx (upd_self ..) rfl))
        (.see _ x x true hx (upd_self ..) ⟨rfl, fun h => by cases h⟩))
        (.flag _ x x hx (upd_self ..)))
        (.index _ x x hx (upd_self ..)))
        (.skip _ y y hy (by simp only [upd_ne _ _ hxy.symm, upd_self]) ⟨rfl, rfl⟩), ⟨?_, fun t => ?_⟩, upd_self .., ?_⟩
    · ext z; simp; omega
    · by_cases h0 : t = y
      · subst h0; exact upd_self ..
      · by_cases h1 : t = x
        · subst h1; simp only [upd_ne _ _ h0, upd_self]
        · simp only [upd_ne _ _ h0, upd_ne _ _ h1]
    · exact upd_ne _ _ hxy.symm
  intro b
  cases b with
  | true =>
    obtain ⟨σ, σ', h⟩ := run 0 1 (by decide) (by decide) (by decide)
    exact ⟨σ, σ', h⟩
  | false =>
    obtain ⟨σ, σ', h1, h2, h3, h4, h5, h6⟩ := run 1 0 (by decide) (by decide) (by decide)
    exact ⟨σ, σ', h1, h2, h3, h4, h6, h5⟩

section
universe u
variable {K : Type u} [CommRing K] {s : Sys K}

/-- **Placements of the geometry objects.** `updateGeometryPlacements` writes in `oMg[i]`, for every object, the world
placement of its parent joint times its placement in it (the placement itself for an object of the universe), and nothing
else. -/
theorem C35_placements (g : GeomModel) (hg : g.ngeoms = g.objects.length) (pl oMi oMg : ℕ → SE3 K) :
    (∀ i o, g.objects[i]? = some o →
      updateGeometryPlacements g pl oMi oMg i = if o.parentJoint > 0 then oMi o.parentJoint * pl i else pl i) ∧
    ∀ i, g.ngeoms ≤ i → updateGeometryPlacements g pl oMi oMg i = oMg i := by
  have key : ∀ n i, (List.range n).foldl (fun oMg i =>
      let j := (g.objects[i]?.map (·.parentJoint)).getD 0
      upd oMg i (if j > 0 then oMi j * pl i else pl i)) oMg i
      = if i < n then (if (g.objects[i]?.map (·.parentJoint)).getD 0 > 0
          then oMi ((g.objects[i]?.map (·.parentJoint)).getD 0) * pl i else pl i) else oMg i := by
    intro n
    induction n with
    | zero => intro i; rfl
    | succ n ih =>
      intro i
      rw [List.range_succ, List.foldl_append, List.foldl_cons, List.foldl_nil]
      by_cases e : i = n
      · subst e; rw [upd_self, if_pos (Nat.lt_succ_self _)]
      · rw [upd_ne _ _ e, ih]
        apply if_congr _ rfl rfl
        omega
  refine ⟨fun i o ho => ?_, fun i hi => ?_⟩
  · have hi : i < g.ngeoms := by
      rw [hg]; exact (List.getElem?_eq_some_iff.1 ho).1
    unfold updateGeometryPlacements
    rw [key, if_pos hi, ho]; rfl
  · unfold updateGeometryPlacements
    rw [key, if_neg (by omega)]

/-- two objects of an active pair, whose collision is not disabled, collide in configuration `q`: the library says so for
the world placements of their parent joints times their placements -/
def InCollision (s : Sys K) (g : GeomModel) (pl : ℕ → SE3 K) (lib : ℕ → SE3 K → SE3 K → Bool) (active : ℕ → Bool)
    (q : ℕ → K) : Prop :=
  ∃ k i j o o', g.pairs[k]? = some (i, j) ∧ active k = true ∧ g.objects[i]? = some o ∧ g.objects[j]? = some o' ∧
    o.disableCollision = false ∧ o'.disableCollision = false ∧
    lib k (s.oM q o.parentJoint * pl i) (s.oM q o'.parentJoint * pl j) = true

/-- one query on the data of a thread, whatever it held -/
theorem collision_query (hp : ParOk s.par s.n) (g : GeomModel) (hg : g.ngeoms = g.objects.length)
    (hpairs : ∀ p ∈ g.pairs, p.1 < g.ngeoms ∧ p.2 < g.ngeoms) (hj : ∀ o ∈ g.objects, o.parentJoint < s.n)
    (pl : ℕ → SE3 K) (lib : ℕ → SE3 K → SE3 K → Bool) (active : ℕ → Bool) (stop : Bool) (q : ℕ → K) (d : CollData K) :
    ((collisionSteps s g pl lib active stop q).foldl (fun d f => f d) d).c.colliding = true ↔
      InCollision s g pl lib active q := by
  have hk : ∀ (l : List ℕ) (d : CollData K),
      (l.map (fun i (d : CollData K) => { d with data := fk0Step s q i d.data })).foldl (fun d f => f d) d
        = { d with data := l.foldl (fun d i => fk0Step s q i d) d.data } := by
    intro l
    induction l with
    | nil => intro d; rfl
    | cons i l ih => intro d; rw [List.map_cons, List.foldl_cons, ih]; rfl
  unfold collisionSteps
  rw [List.foldl_append, hk]
  simp only [List.foldl_cons, List.foldl_nil]
  rw [(C35_sequential _ _ stop _ _ _).1]
  have hfk : ∀ j, 1 ≤ j → j < s.n → ((List.range' 1 (s.n - 1)).foldl (fun d i => fk0Step s q i d) d.data).oMi j = s.oM q j :=
    fun j h1 hj => (fk0_ok hp d.data q j h1 hj).2.1
  set O := ((List.range' 1 (s.n - 1)).foldl (fun d i => fk0Step s q i d) d.data).oMi with hO
  have hpl : ∀ i o, g.objects[i]? = some o → updateGeometryPlacements g pl O d.oMg i = s.oM q o.parentJoint * pl i := by
    intro i o ho
    rw [(C35_placements g hg pl O d.oMg).1 i o ho]
    have hoj := hj o (List.mem_of_getElem? ho)
    by_cases h0 : o.parentJoint > 0
    · rw [if_pos h0, hfk _ h0 hoj]
    · have : o.parentJoint = 0 := by omega
      rw [if_neg h0, this, Sys.oM_zero, SE3.one_mul]
  have hobj : ∀ i, i < g.ngeoms → ∃ o, g.objects[i]? = some o := by
    intro i hi; rw [hg] at hi; exact ⟨_, List.getElem?_eq_getElem hi⟩
  constructor
  · rintro ⟨k, hkn, he, hc⟩
    have hpk := List.getElem?_eq_getElem hkn
    rcases hij : g.pairs[k] with ⟨i, j⟩
    rw [hij] at hpk
    have hm := hpairs (i, j) (List.mem_of_getElem? hpk)
    obtain ⟨o, ho⟩ := hobj i hm.1
    obtain ⟨o', ho'⟩ := hobj j hm.2
    simp only [pairEnabled, hpk, ho, ho', Option.map_some, Option.getD_some, Bool.and_eq_true, Bool.not_eq_true',
      Bool.or_eq_false_iff] at he
    simp only [pairCol, hpk] at hc
    rw [hpl i o ho, hpl j o' ho'] at hc
    exact ⟨k, i, j, o, o', hpk, he.1, ho, ho', he.2.1, he.2.2, hc⟩
  · rintro ⟨k, i, j, o, o', hpk, ha, ho, ho', h1, h2, hc⟩
    refine ⟨k, (List.getElem?_eq_some_iff.1 hpk).1, ?_, ?_⟩
    · simp only [pairEnabled, hpk, ho, ho', Option.map_some, Option.getD_some, h1, h2, ha]; rfl
    · simp only [pairCol, hpk]
      rw [hpl i o ho, hpl j o' ho']; exact hc

/-- **C35, batch.** `computeCollisionsInParallel` over configurations, each thread using its own model, data, geometry model
and geometry data: for every number of threads and every interleaving, whatever the datas held, configuration `i` is
reported in collision exactly when it is, when the models of the threads are equal. -/
theorem C35_batch {T n : ℕ} (models : ℕ → Sys K) (gmodels : ℕ → GeomModel) (pls : ℕ → ℕ → SE3 K) (actives : ℕ → ℕ → Bool)
    {g : GeomModel} {pl : ℕ → SE3 K} {active : ℕ → Bool}
    (hm : ∀ t < T, models t = s ∧ gmodels t = g ∧ pls t = pl ∧ actives t = active) (hp : ParOk s.par s.n)
    (hg : g.ngeoms = g.objects.length) (hpairs : ∀ p ∈ g.pairs, p.1 < g.ngeoms ∧ p.2 < g.ngeoms)
    (hj : ∀ o ∈ g.objects, o.parentJoint < s.n) (lib : ℕ → SE3 K → SE3 K → Bool) (stop : Bool) (q : ℕ → ℕ → K)
    {σ σ' : PState (CollData K) Bool} (hi : σ.Init n)
    (hr : ReflTransGen (PStep T (fun t i => collisionSteps (models t) (gmodels t) (pls t) lib (actives t) stop (q i))
      (fun d => d.c.colliding)) σ σ') (hf : σ'.Final) :
    ∀ i < n, (σ'.res i = true ↔ InCollision s g pl lib active (q i)) := by
  intro i hin
  obtain ⟨t, ht, d', e⟩ := (PInv.reach hi hr).final hf hin
  obtain ⟨h1, h2, h3, h4⟩ := hm t ht
  simp only [h1, h2, h3, h4] at e
  rw [e]
  exact collision_query hp g hg hpairs hj pl lib active stop (q i) d'

/-- the hypotheses on the geometry model hold for every model reached through the API -/
theorem C35_reachable (ops : List GOp) (hp : ∀ op ∈ ops, op.Pre) {g : GeomModel} (hg : runG GeomModel.empty ops = some g) :
    g.ngeoms = g.objects.length ∧ ∀ p ∈ g.pairs, p.1 < g.ngeoms ∧ p.2 < g.ngeoms := by
  obtain ⟨g0, e, h⟩ := Sim.runFrom ops Sim.init hp
  rw [hg] at e; cases e
  exact ⟨h.inv.len.symm, fun p hp => ⟨(h.inv.valid p hp).2.1, (h.inv.valid p hp).2.2⟩⟩
end

/-- C35 is not vacuous -/
example : ∃ σ : CPar, σ.Init 3 ∧
    (computeCollisions (fun k => k != 0) (fun k => k != 1) true 4 9 (fun _ => false)).idx = 2 ∧
    (computeCollisions (fun k => k != 0) (fun k => k != 1) true 4 9 (fun _ => false)).results 3 = false ∧
    (computeCollisions (fun k => k != 0) (fun k => k != 1) false 4 9 (fun _ => false)).results 3 = true :=
  ⟨⟨{k | k < 3}, false, 0, fun _ => true, fun _ => .idle⟩, ⟨rfl, rfl, fun _ => rfl⟩, rfl, rfl, rfl⟩

end Pin
