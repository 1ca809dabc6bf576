import Verif.Algo.Delassus
import Verif.Spec.ContactAba

/-!
# `algorithm/delassus.hxx`: Delassus matrix by accumulation (PV-OSIMr)

`initPvDelassus`, `computePvDelassusMatrix` and `computeDampedDelassusMatrixInverse` with `Pv = true`, its default.
Models without mimic joints, contacts in `LOCAL` (the others stop on an assertion). The sizes of `q` and of the vectors of
contacts are right by construction. `data.joints_supporting_constraints`, which nothing reads, is not modelled. A 6×6 matrix
that multiplies a motion from the left is the family of its rows.

`ComputePvDelassusBackwardStep` (`delassus.hxx:418-463`) derives from
`JointUnaryVisitorBase<ComputeOSIMBackwardStep>`: `Pass2::run` calls `ComputeOSIMBackwardStep::algo` (`osimBwd`), and the
member `algo` of the class itself, which is another function, is never called.
-/

namespace Pin
open Finset
variable {K : Type*}

/-- The tables that `initPvDelassus` fills, `multibody/data.hpp:586-592`: `constraints_supported_dim`,
`accumulation_descendant`, `accumulation_ancestor`, `constraints_on_joint`, `constraints_supported`,
`accumulation_joints`. -/
structure AccTab where
  dim : ℕ → ℕ
  desc : ℕ → ℕ
  anc : ℕ → ℕ
  on : ℕ → List ℕ
  sup : ℕ → Finset ℕ
  joints : List ℕ

/-- the tables of a new `Data`, `multibody/data.hxx:160-164` -/
def AccTab.new : AccTab := ⟨fun _ => 0, fun _ => 0, fun _ => 0, fun _ => [], fun _ => ∅, []⟩

/-- the loop over the contacts, `delassus.hxx:298-325` -/
def accOwn (ms : ℕ → RCM K) (k : ℕ) (t : AccTab) : AccTab :=
  let j := (ms k).j1
  { t with
    dim := upd t.dim j (t.dim j + (ms k).type.dim)
    desc := upd t.desc j j
    on := upd t.on j (t.on j ++ [k]) }

/-- the count of the constraints, `delassus.hxx:328-337` -/
def accCount (par : ℕ → ℕ) (i : ℕ) (t : AccTab) : AccTab :=
  let t := { t with dim := upd t.dim (par i) (t.dim (par i) + t.dim i) }
  let t := { t with sup := upd t.sup i (t.sup i ∪ (t.on i).toFinset) }
  { t with sup := upd t.sup (par i) (t.sup (par i) ∪ t.sup i) }

/-- the accumulation descendants, `delassus.hxx:339-351` -/
def accDesc (par : ℕ → ℕ) (i : ℕ) (t : AccTab) : AccTab :=
  if t.dim i > 0 then
    let t := { t with desc := upd t.desc (par i) (t.desc i) }
    if t.dim (par i) > t.dim i then { t with desc := upd t.desc (par i) (par i) } else t
  else t

/-- the accumulation joints, `delassus.hxx:353-357` -/
def accJoint (i : ℕ) (t : AccTab) : AccTab :=
  if t.desc i = i then { t with joints := t.joints ++ [i] } else t

/-- the accumulation ancestors, `delassus.hxx:359-367` -/
def accAnc (par : ℕ → ℕ) (i : ℕ) (t : AccTab) : AccTab :=
  if t.desc (par i) = par i then
    if t.desc i ≠ 0 then { t with anc := upd t.anc (t.desc i) (par i) } else t
  else t

/-- `initPvDelassus(model, data, contact_models)`, `delassus.hxx:290-368` -/
def initPvDelassus (par : ℕ → ℕ) (n : ℕ) (ms : ℕ → RCM K) (nc : ℕ) (t : AccTab) : AccTab :=
  let t := upTo (accOwn ms) nc { t with dim := fun _ => 0 }
  let t := bwd (accCount par) n t
  let t := bwd (accDesc par) n t
  let t := fwd accJoint n t
  bwd (accAnc par) n t

/-- The loop of `findGreatestCommonAncestor`, `delassus.hxx:398-410`, on the two joints and the two indexes; at most `n`
turns. -/
def gcaLoop (A : ℕ → ℕ) : ℕ → ℕ → ℕ → ℕ → ℕ → ℕ × ℕ × ℕ
  | 0, j1, _, a1, a2 => (j1, a1, a2)
  | n + 1, j1, j2, a1, a2 =>
    if j1 = j2 then (j1, a1, a2)
    else if j1 > j2 then gcaLoop A n (A j1) j2 (a1 + 1) a2
    else gcaLoop A n j1 (A j2) a1 (a2 + 1)

/-- `findGreatestCommonAncestor` for two joints of the model, `delassus.hxx:370-416`: the ancestor and the two indexes. The
indexes are at least 1 before the last decrement when the tables are those of `initPvDelassus`. -/
def findGca (t : AccTab) (j1 j2 : ℕ) : ℕ × ℕ × ℕ :=
  if j1 = 0 ∨ j2 = 0 then (0, 0, 0)
  else
    let z := gcaLoop t.anc (j1 + j2) j1 j2 (if (t.sup j1).card > 1 then 1 else 0) (if (t.sup j2).card > 1 then 1 else 0)
    (z.1, z.2.1 - 1, z.2.2 - 1)

/-- The fields of `Data` that the algorithm writes besides the tables, `multibody/data.hpp:583-585`:
`extended_motion_propagator`, `extended_motion_propagator2`, by rows, and `spatial_inv_inertia`, by entries. -/
structure PData (K : Type*) where
  od : OData K
  emp : ℕ → ℕ → Force K
  emp2 : ℕ → ℕ → Force K
  Lam : ℕ → ℕ → ℕ → K

section field
variable [Field K]

/-- the loop over the contacts, `delassus.hxx:519-561`: that of `computeDelassusMatrix`, and the first propagator -/
def pdContact (ms : ℕ → RCM K) (mu : K) (k : ℕ) (x : Data K × (ℕ → OContact K)) : Data K × (ℕ → OContact K) :=
  let x := osimContact ms mu k x
  let X := (x.2 k).oMc1.toActionMatrixInverse
  (x.1, upd x.2 k { x.2 k with
    prop := upd (x.2 k).prop 0 (fun r => if (ms k).type = .CONTACT_3D ∧ 3 ≤ r then 0 else X.rowF r) })

/-- the initial values at the accumulation joints, `delassus.hxx:564-578` -/
def pdStart (t : AccTab) (cd : ℕ → OContact K) (x : PData K) (i : ℕ) : PData K :=
  { x with
    emp := upd x.emp i (if (t.sup i).card = 1 then (cd ((t.on i).getD 0 0)).prop 0 else fun r => (1 : M6 K).rowF r)
    Lam := upd x.Lam i (fun _ _ => 0) }

/-- `Σ f[m] * A(m, n) * g[n]` -/
def bil (A : ℕ → ℕ → K) (f g : Force K) : K := ∑ m ∈ range 6, ∑ n ∈ range 6, f.row m * A m n * g.row n

/-- the backward loop, `delassus.hxx:581-658`. The branches on `nv` compute the same product; the one for `nv == 1` only
updates the 3×3 corner for a single constraint of dimension 3. -/
def pdBwd (s : Sys K) (t : AccTab) (i : ℕ) (x : PData K) : PData K :=
  let x := { x with od := osimBwd s i x.od }
  if t.dim i > 0 then
    let a := t.desc i
    let S := seg x.od.data.J (s.iv i)
    let n := s.jnv i
    let Di := (x.od.data.joints i).Dinv
    let e := x.emp i
    let x := { x with
      Lam := upd x.Lam a (fun r c => if n = 1 ∧ t.dim a = 3 ∧ ¬ (r < 3 ∧ c < 3) then x.Lam a r c
        else x.Lam a r c + ∑ k ∈ range n, ∑ l ∈ range n, (S k).dot (e r) * Di k l * (S l).dot (e c)) }
    let p := s.par i
    if p > 0 ∧ t.desc p = a then
      { x with
        emp := upd x.emp p (fun r => if t.dim a ≠ 3 ∨ r < 3 then (x.od.oL i).tr.mulFF (x.emp i r) else x.emp p r) }
    else if t.desc p ≠ a then { x with emp2 := upd x.emp2 a (fun r => (x.od.oL i).tr.mulFF (x.emp i r)) }
    else x
  else x

/-- the loop over the accumulation joints, `delassus.hxx:660-671` -/
def pdAcc (t : AccTab) (x : PData K) (i : ℕ) : PData K :=
  if t.anc i ≠ 0 then
    { x with Lam := upd x.Lam i (fun r c => x.Lam i r c + bil (x.Lam (t.anc i)) (x.emp2 i r) (x.emp2 i c)) }
  else x

/-- `while (an_i > 1) …`, `delassus.hxx:692-703`, at most `n` turns; `d` is the number of rows that are written -/
def cempLoop (t : AccTab) (x : PData K) (d : ℕ) : ℕ → ℕ → ℕ → OContact K → OContact K
  | 0, _, _, c => c
  | n + 1, a, k, c =>
    if a > 1 then
      cempLoop t x d n (t.anc a) (k + 1) { c with
        prop := upd c.prop k (fun r => if r < d then ∑ m ∈ range 6, (c.prop (k - 1) r).row m • x.emp2 a m
          else c.prop k r) }
    else c

/-- the propagators of a contact, `delassus.hxx:675-704`. The contact data has a matrix for each joint of the support
(`contact-info.hpp:951`): the index is within the bounds, as the loop visits each ancestor once. -/
def cempRev (s : Sys K) (ms : ℕ → RCM K) (t : AccTab) (x : PData K) (k : ℕ) (cd : ℕ → OContact K) : ℕ → OContact K :=
  let j := (ms k).j1
  let d := if (ms k).type.dim ≠ 3 then 6 else 3
  upd cd k (if (t.sup j).card = 1 then cempLoop t x d s.n (t.anc j) 1 { cd k with prop := upd (cd k).prop 0 (x.emp2 j) }
    else cempLoop t x d s.n j 1 (cd k))

/-- the block of the contacts `i < k`, `delassus.hxx:722-760` -/
def pdBlock (ms : ℕ → RCM K) (t : AccTab) (x : PData K) (cd : ℕ → OContact K) (k i : ℕ) (D : ℕ → ℕ → K) : ℕ → ℕ → K :=
  let z := findGca t (ms k).j1 (ms i).j1
  putBlk D (conRow ms i) (conRow ms k) (ms i).type.dim (ms k).type.dim
    (fun r c => bil (x.Lam z.1) ((cd i).prop z.2.2 r) ((cd k).prop z.2.1 c))

/-- the blocks of contact `k`, `delassus.hxx:707-786` -/
def pdStep (ms : ℕ → RCM K) (t : AccTab) (x : PData K) (cd : ℕ → OContact K) (k : ℕ) (D : ℕ → ℕ → K) : ℕ → ℕ → K :=
  let D := upTo (pdBlock ms t x cd k) k D
  let j := (ms k).j1
  putBlk D (conRow ms k) (conRow ms k) (ms k).type.dim (ms k).type.dim
    (fun r c => if t.dim j > 6 ∨ (t.sup j).card > 1 then bil (x.Lam j) ((cd k).prop 0 r) ((cd k).prop 0 c)
      else x.Lam j r c)

/-- what the outputs hold after a call -/
structure PSim (K : Type*) where
  x : PData K
  cd : ℕ → OContact K
  D : ℕ → ℕ → K

/-- `computePvDelassusMatrix(model, data, q, contact_models, contact_data, delassus, mu)`, `delassus.hxx:473-790`, for `nc`
contacts on joints of the model; `t` are the tables of the data, `rows` and `cols` the sizes of `delassus`. -/
def computePvDelassusMatrix [LinearOrder K] (s : Sys K) (ms : ℕ → RCM K) (nc : ℕ) (t : AccTab) (x : PData K)
    (cd : ℕ → OContact K) (q : ℕ → K) (rows cols : ℕ) (D : ℕ → ℕ → K) (mu : K) : Res Unit (PSim K) :=
  if ¬ 0 ≤ mu then .throw ()
  else if rows ≠ conRow ms nc ∨ cols ≠ conRow ms nc then .throw ()
  else
    let y := upTo (pdContact ms mu) nc (fwd (osimFwd s q) s.n x.od.data, cd)
    let x := { x with od := { x.od with data := y.1 } }
    let x := t.joints.foldl (pdStart t y.2) x
    let x := bwd (pdBwd s t) s.n x
    let x := t.joints.foldl (pdAcc t) x
    let cd := upTo (cempRev s ms t x) nc y.2
    .ok () ⟨x, cd, upTo (pdStep ms t x cd) nc D⟩

/-- `computeDampedDelassusMatrixInverse(…, mu, scaled)`, `Pv` being true by default, `delassus.hxx:800-836`; see
`computeDampedDelassusMatrixInverse` -/
def computeDampedDelassusMatrixInversePv [LinearOrder K] (dummy : K) (s : Sys K) (ms : ℕ → RCM K) (nc : ℕ) (t : AccTab)
    (x : PData K) (cd : ℕ → OContact K) (q : ℕ → K) (rows cols : ℕ) (D : ℕ → ℕ → K) (mu : K) (scaled : Bool) :
    Res Unit (PSim K) :=
  if ¬ dummy ≤ mu then .throw ()
  else
    let mu_inv := 1 / mu
    match computePvDelassusMatrix s ms nc t x cd q rows cols D mu_inv with
    | .ok _ z =>
      let E := fun r c => z.D r c * (-mu_inv)
      let E := fun r c => if r = c then E r c + 1 else E r c
      let E := if scaled then E else fun r c => E r c * mu_inv
      .ok () { z with D := E }
    | .throw _ => .throw ()
    | .ub => .ub

end field
end Pin
