import Verif.Algo.Minverse
import Verif.Algo.Constraint
import Verif.Algo.Regressor
import Verif.Model.Ancestor

/-!
# `algorithm/delassus.hxx`: Delassus matrix of a set of contacts, by the propagation of motions and forces

Models without mimic joints. `computeDelassusMatrix` and `computeDampedDelassusMatrixInverse` with `Pv = false` are
modelled here; `initPvDelassus` and `computePvDelassusMatrix` (`delassus.hxx:284-790`) in `Algo/PvDelassus.lean`. The sizes
of `q` and of the vectors of contacts are right by construction.
-/

namespace Pin
open Finset
variable {K : Type*}

section mul
variable [Mul K]

/-- `a * bᵀ`, a motion by a motion -/
def M6.outerMM (a b : Motion K) : M6 K where
  ll := M3.outer a.lin b.lin
  la := M3.outer a.lin b.ang
  al := M3.outer a.ang b.lin
  aa := M3.outer a.ang b.ang

/-- `a * bᵀ`, a motion by a force -/
def M6.outerMF (a : Motion K) (b : Force K) : M6 K where
  ll := M3.outer a.lin b.lin
  la := M3.outer a.lin b.ang
  al := M3.outer a.ang b.lin
  aa := M3.outer a.ang b.ang

end mul

/-- row `r` of a 6×6 matrix that acts on motions -/
def M6.rowF (A : M6 K) (r : ℕ) : Force K :=
  if r < 3 then ⟨A.ll.tr.col r, A.la.tr.col r⟩ else ⟨A.al.tr.col (r - 3), A.aa.tr.col (r - 3)⟩

/-- The fields of `Data` that the algorithm writes: those of `Data K`, `oK` and `oL`
(`multibody/data.hpp:272-276`). -/
structure OData (K : Type*) where
  data : Data K
  oK : ℕ → M6 K
  oL : ℕ → M6 K

/-- The fields of `RigidConstraintDataTpl` that the algorithm writes, `algorithm/contact-info.hpp:854, 894-895`:
`prop j r` is row `r` of `extended_motion_propagators_joint1[j]`, `lam j c` is column `c` of `lambdas_joint1[j]`. Both
vectors have the size of the support of the joint (`algorithm/contact-info.hpp:720, 951-952`). -/
structure OContact (K : Type*) where
  oMc1 : SE3 K
  prop : ℕ → ℕ → Force K
  lam : ℕ → ℕ → Motion K

/-- `model.supports[j]`: the universe, then the joints of the chain down to `j`, `multibody/model.hxx:157-158`; that the
table built by `addJoint` is this one is C02. -/
def Sys.sup (s : Sys K) (j : ℕ) : List ℕ := 0 :: path s.par j

/-- `getTotalConstraintSize` of the first `k` contacts, `algorithm/contact-info.hpp:809-820`; in the main loop, the row
of the first entry of contact `k`, `delassus.hxx:189, 272`. -/
def conRow (ms : ℕ → RCM K) : ℕ → ℕ
  | 0 => 0
  | k + 1 => conRow ms k + (ms k).type.dim

section field
variable [Field K]

/-- `ComputeOSIMForwardStep::algo`, `delassus.hxx:32-55` -/
def osimFwd (s : Sys K) (q : ℕ → K) (i : ℕ) (d : Data K) : Data K :=
  let d := { d with joints := upd d.joints i ((s.jt i).calc (s.qs q i) (d.joints i)) }
  let d := { d with liMi := upd d.liMi i (s.pl i * (d.joints i).M) }
  let d := { d with oMi := upd d.oMi i (if s.par i > 0 then d.oMi (s.par i) * d.liMi i else d.liMi i) }
  let d := { d with J := putSeg d.J (s.iv i) (s.jnv i) (fun k => (d.oMi i).act ((d.joints i).S k)) }
  let d := { d with oYcrb := upd d.oYcrb i ((s.Y i).act (d.oMi i)) }
  { d with oYaba := upd d.oYaba i (d.oYcrb i).matrix }

/-- `contact_inertia`, `delassus.hxx:170-178` -/
def conInertia (type : CType) (mu : K) (oMc : SE3 K) : Inertia K :=
  ⟨mu, oMc.trans, if type = .CONTACT_6D then ⟨mu, 0, mu, 0, 0, mu⟩ else 0⟩

/-- the second loop, `delassus.hxx:159-180`: placement of contact `k` and its inertia -/
def osimContact (ms : ℕ → RCM K) (mu : K) (k : ℕ) (x : Data K × (ℕ → OContact K)) : Data K × (ℕ → OContact K) :=
  let m := ms k
  let oMc := x.1.oMi m.j1 * m.P1
  ({ x.1 with oYaba := upd x.1.oYaba m.j1 (x.1.oYaba m.j1 + (conInertia m.type mu oMc).matrix) },
    upd x.2 k { x.2 k with oMc1 := oMc })

/-- `ComputeOSIMBackwardStep::algo`, `delassus.hxx:68-105`. `jdata.UDinv()` first holds `Jcols * Dinvᵀ`, a local here
(its column `c` is `SD c`), and `U * Dinv` for the parent; a joint on the universe keeps the former, which nothing
reads (`JD.UDinv` is a family of forces and is left alone there). -/
def osimBwd (s : Sys K) (i : ℕ) (x : OData K) : OData K :=
  let d := x.data
  let Ia := d.oYaba i
  let n := s.jnv i
  let S := seg d.J (s.iv i)
  let jd := { (d.joints i) with U := fun k => Ia.mulMF (S k) }
  let jd := { jd with StU := fun r c => (S r).dot (jd.U c) + if r = c then seg s.arm (s.iv i) r else 0 }
  let jd := { jd with Dinv := invBlock n jd.StU }
  let SD := fun c => ∑ k ∈ range n, jd.Dinv c k • S k
  let oK := ∑ k ∈ range n, M6.outerMM (SD k) (S k)
  let oL := -(∑ k ∈ range n, M6.outerMF (SD k) (jd.U k)) + 1
  let x := { x with oK := upd x.oK i oK, oL := upd x.oL i oL }
  if s.par i > 0 then
    let jd := { jd with UDinv := fun c => ∑ k ∈ range n, jd.Dinv k c • jd.U k }
    { x with data := { d with
        joints := upd d.joints i jd
        oYaba := upd d.oYaba (s.par i) (d.oYaba (s.par i) + Ia - ∑ k ∈ range n, M6.outer (jd.UDinv k) (jd.U k)) } }
  else { x with data := { d with joints := upd d.joints i jd } }

/-- `for (j = support1.size() - 1; j > 1; --j) …`, `delassus.hxx:205-212, 226-230`; the loop variable is `j + 1`. -/
def osimUp (sup : List ℕ) (x : OData K) (dim : ℕ) : ℕ → OContact K → OContact K
  | 0, c => c
  | j + 1, c =>
    if j + 1 > 1 then
      let c := { c with
        lam := upd c.lam (j + 1)
          (fun r => if r < dim then (x.oK (sup.getD (j + 1) 0)).mulFM (c.prop (j + 1) r) else c.lam (j + 1) r) }
      let c := { c with
        prop := upd c.prop j
          (fun r => if r < dim then (x.oL (sup.getD (j + 1) 0)).tr.mulFF (c.prop (j + 1) r) else c.prop j r) }
      osimUp sup x dim j c
    else c

/-- `lambdas[1] = …` and the loop down the support, `delassus.hxx:213-220, 231-236`; `n` is `support1.size()` -/
def osimDown (sup : List ℕ) (x : OData K) (dim n : ℕ) (c : OContact K) : OContact K :=
  let c := { c with
    lam := upd c.lam 1
      (fun r => if r < dim then (x.oK (sup.getD 1 0)).mulFM (c.prop 1 r) else c.lam 1 r) }
  upTo (fun i c => { c with
    lam := upd c.lam (i + 2)
      (fun r => if r < dim then c.lam (i + 2) r + (x.oL (sup.getD (i + 2) 0)).mulMM (c.lam (i + 1) r)
        else c.lam (i + 2) r) }) (n - 2) c

/-- the propagators and the `lambdas` of one contact, `delassus.hxx:191-242`. On the universe (`support1.size()` is 1)
`lambdas[1]` is out of the vector: `none`. -/
def osimSweep (s : Sys K) (x : OData K) (m : RCM K) (c : OContact K) : Option (OContact K) :=
  let n := (s.sup m.j1).length
  if n < 2 then none
  else
    let X := c.oMc1.toActionMatrixInverse
    let c := { c with
      prop := upd c.prop (n - 1) (fun r => if m.type = .CONTACT_3D ∧ 3 ≤ r then 0 else X.rowF r) }
    some (osimDown (s.sup m.j1) x m.type.dim n (osimUp (s.sup m.j1) x m.type.dim (n - 1) c))

/-- `D.block(r0, c0, nr, nc) = B` -/
def putBlk (D : ℕ → ℕ → K) (r0 c0 nr nc : ℕ) (B : ℕ → ℕ → K) : ℕ → ℕ → K :=
  fun r c => if (r0 ≤ r ∧ r < r0 + nr) ∧ c0 ≤ c ∧ c < c0 + nc then B (r - r0) (c - c0) else D r c

/-- The positions of the common ancestor in the supports of `j1` and `j2`, `findCommonAncestor`,
`algorithm/model.hxx:1017-1052`, for two joints of the model. -/
def Sys.fca (s : Sys K) (j1 j2 : ℕ) : Option (ℕ × ℕ) :=
  if j1 = 0 ∨ j2 = 0 then some (0, 0)
  else (Model.caLoop (s.sup j1) (s.sup j2) j1 j2 ((s.sup j1).length - 1) ((s.sup j2).length - 1)).map (·.2)

/-- the block of the contacts `i < k`, `delassus.hxx:252-268` -/
def osimBlock (s : Sys K) (ms : ℕ → RCM K) (cd : ℕ → OContact K) (k i : ℕ) (D : Option (ℕ → ℕ → K)) :
    Option (ℕ → ℕ → K) :=
  D.bind fun D => (s.fca (ms k).j1 (ms i).j1).map fun p =>
    putBlk D (conRow ms i) (conRow ms k) (ms i).type.dim (ms k).type.dim
      (fun r c => ((cd k).lam p.1 c).dot ((cd i).prop p.2 r))

/-- the body of the main loop, `delassus.hxx:190-274` -/
def osimStep (s : Sys K) (ms : ℕ → RCM K) (x : OData K) (k : ℕ) (y : Option ((ℕ → OContact K) × (ℕ → ℕ → K))) :
    Option ((ℕ → OContact K) × (ℕ → ℕ → K)) :=
  y.bind fun y => (osimSweep s x (ms k) (y.1 k)).bind fun c =>
    let cd := upd y.1 k c
    let n := (s.sup (ms k).j1).length
    (upTo (osimBlock s ms cd k) k (some y.2)).map fun D =>
      (cd, putBlk D (conRow ms k) (conRow ms k) (ms k).type.dim (ms k).type.dim
        (fun r c => ((cd k).lam (n - 1) c).dot ((cd k).prop (n - 1) r)))

/-- what the outputs hold after a call -/
structure OSim (K : Type*) where
  x : OData K
  cd : ℕ → OContact K
  D : ℕ → ℕ → K

/-- `computeDelassusMatrix(model, data, q, contact_models, contact_data, delassus, mu)`, `delassus.hxx:118-281`, for
`nc` contacts on joints of the model; `rows` and `cols` are the sizes of `delassus`. -/
def computeDelassusMatrix [LinearOrder K] (s : Sys K) (ms : ℕ → RCM K) (nc : ℕ) (x : OData K) (cd : ℕ → OContact K)
    (q : ℕ → K) (rows cols : ℕ) (D : ℕ → ℕ → K) (mu : K) : Res Unit (OSim K) :=
  if ¬ 0 ≤ mu then .throw ()
  else if rows ≠ conRow ms nc ∨ cols ≠ conRow ms nc then .throw ()
  else
    let y := upTo (osimContact ms mu) nc (fwd (osimFwd s q) s.n x.data, cd)
    let x := bwd (osimBwd s) s.n { x with data := y.1 }
    match upTo (osimStep s ms x) nc (some (y.2, D)) with
    | none => .ub
    | some z => .ok () ⟨x, z.1, z.2⟩

/-- `computeDampedDelassusMatrixInverse(…, mu, scaled, false)`, `delassus.hxx:800-836`; `dummy` is
`NumTraits<Scalar>::dummy_precision()`. The operations on the result are those on a matrix of size `n`. -/
def computeDampedDelassusMatrixInverse [LinearOrder K] (dummy : K) (s : Sys K) (ms : ℕ → RCM K) (nc : ℕ) (x : OData K)
    (cd : ℕ → OContact K) (q : ℕ → K) (rows cols : ℕ) (D : ℕ → ℕ → K) (mu : K) (scaled : Bool) : Res Unit (OSim K) :=
  if ¬ dummy ≤ mu then .throw ()
  else
    let mu_inv := 1 / mu
    match computeDelassusMatrix s ms nc x cd q rows cols D mu_inv with
    | .ok _ z =>
      let E := fun r c => z.D r c * (-mu_inv)
      let E := fun r c => if r = c then E r c + 1 else E r c
      let E := if scaled then E else fun r c => E r c * mu_inv
      .ok () { z with D := E }
    | .throw _ => .throw ()
    | .ub => .ub

end field
end Pin
