import Verif.Algo.Delassus
import Verif.Algo.ConstraintDynamics

/-!
# `algorithm/pv.hxx`: constrained dynamics by the algorithm of Popov and Vereshchagin

Models without mimic joints. `constrainedABA` is in `Verif.Algo.PvAba`. The
sizes of `q`, `v`, `tau` and of the vectors of contacts are right by construction. `data.tau`, which the backward pass
uses as a scratch vector, and `data.lambda_c`, which is only set to zero, are not modelled. The columns of a matrix of
`Data` are functions of their index; those beyond the size are never read by the property theorems.
-/

namespace Pin
open Finset
variable {K : Type*}

/-- The fields of `Data` that the solvers read or write besides those of `Data K` (`multibody/data.hpp:489, 521-530, 588`):
`a_bias`, `constraints_supported_dim`, `par_cons_ind`, the columns of `KA`, `KAS` (joint, column, row), `lA`, `LA`,
`lambdaA`, `lambda_c_prox`, and the output `absolute_residual` of the settings. -/
structure PvData (K : Type*) where
  data : Data K
  bias : ℕ → Motion K
  dim : ℕ → ℕ
  pind : ℕ → ℕ
  KA : ℕ → ℕ → Force K
  KAS : ℕ → ℕ → ℕ → K
  lA : ℕ → ℕ → K
  LA : ℕ → ℕ → ℕ → K
  lamA : ℕ → ℕ → K
  prox : ℕ → K
  absRes : K

/-- The fields of `RigidConstraintDataTpl` that the solvers read or write, `algorithm/contact-info.hpp:860-881`:
`contact1_velocity`, `c1Mc2`, `contact_placement_error`, `contact_velocity_error`, `contact_acceleration_error`. -/
structure PvCon (K : Type*) where
  vc1 : Motion K
  c1Mc2 : SE3 K
  perr : Motion K
  verr : Motion K
  aerr : Motion K

/-- the contacts that the solvers accept: the others stop on an assertion, `pv.hxx:51-59, 484-487, 683-686` -/
def RCM.PvOk (m : RCM K) : Prop := m.rf = .LOCAL ∧ m.j2 = 0

section init
variable [Field K]

/-- `constraints_supported_dim[joint_id] += …` for each contact, `pv.hxx:36-62` -/
def pvOwn (ms : ℕ → RCM K) (nc : ℕ) : ℕ → ℕ :=
  upTo (fun k d => upd d (ms k).j1 (d (ms k).j1 + (ms k).type.dim)) nc (fun _ => 0)

/-- the loop over the joints, `pv.hxx:64-69`, on `(constraints_supported_dim, par_cons_ind)` -/
def pvCount (s : Sys K) (i : ℕ) (x : (ℕ → ℕ) × (ℕ → ℕ)) : (ℕ → ℕ) × (ℕ → ℕ) :=
  let pind := upd x.2 i (x.1 (s.par i))
  (upd x.1 (s.par i) (x.1 (s.par i) + x.1 i), pind)

/-- the columns of a contact in the frame of its joint, `pv.hxx:92-104`: `toActionMatrixInverse().transpose()`, three
columns of it for a `CONTACT_3D` -/
def RCM.pvCol (m : RCM K) (r : ℕ) : Force K := m.P1.toActionMatrixInverse.rowF r

/-- the constraint matrices of the contacts, `pv.hxx:84-105`, on `(KA, condim_counter)` -/
def pvPut (ms : ℕ → RCM K) (k : ℕ) (x : (ℕ → ℕ → Force K) × (ℕ → ℕ)) : (ℕ → ℕ → Force K) × (ℕ → ℕ) :=
  let m := ms k
  (upd x.1 m.j1 (putSeg (x.1 m.j1) (x.2 m.j1) m.type.dim m.pvCol), upd x.2 m.j1 (x.2 m.j1 + m.type.dim))

/-- `initPvSolver(model, data, contact_models)`, `pv.hxx:20-111` -/
def initPvSolver (s : Sys K) (x : PvData K) (ms : ℕ → RCM K) (nc : ℕ) : PvData K :=
  let c := bwd (pvCount s) s.n (pvOwn ms nc, x.pind)
  { x with
    dim := c.1
    pind := c.2
    lA := fun _ _ => 0
    lamA := fun _ _ => 0
    LA := fun _ _ _ => 0
    KAS := fun _ _ _ => 0
    KA := (upTo (pvPut ms) nc ((fun _ _ => 0), fun _ => 0)).1
    prox := fun _ => 0 }

end init

section field
variable [Field K]

/-- `PvForwardStep1::algo`, `pv.hxx:130-159`, and `data.oMi[i]`, `pv.hxx:456-463, 656-663`, when `bp` (one of the gains
`Kp` is not zero) -/
def pvFwd1 (s : Sys K) (bp : Bool) (q v : ℕ → K) (i : ℕ) (x : PvData K) : PvData K :=
  let d := x.data
  let d := { d with joints := upd d.joints i ((s.jt i).calcV (s.qs q i) (s.vs v i) (d.joints i)) }
  let d := { d with liMi := upd d.liMi i (s.pl i * (d.joints i).M) }
  let d := { d with v := upd d.v i (d.joints i).v }
  let d := if s.par i > 0 then
      { d with v := upd d.v i (d.v i + (d.liMi i).actInv (d.v (s.par i))) }
    else d
  let d := { d with
    a_gf := upd d.a_gf i ⟨(d.liMi i).rot.tr.mulVec (d.a_gf (s.par i)).lin, (d.a_gf i).ang⟩ }
  let bias := upd x.bias i ((d.joints i).c + (d.v i).cross (d.joints i).v)
  let d := { d with Yaba := upd d.Yaba i (s.Y i).matrix }
  let d := { d with h := upd d.h i ((s.Y i).mul (d.v i)) }
  let d := { d with f := upd d.f i ((d.v i).crossF (d.h i)) }
  let d := if bp then
      { d with oMi := upd d.oMi i (if s.par i > 0 then d.oMi (s.par i) * d.liMi i else d.liMi i) }
    else d
  { x with data := d, bias := bias }

/-- The feedback of one contact, `pv.hxx:489-527, 688-726`: `contact_acc_err` and what it is made from. The velocity
`vc1` is read before it is written, and `c1Mc2` is not written. `lg` is `log6`. -/
def pvFeedback [DecidableEq K] (lg : SE3 K → Motion K) (m : RCM K) (k : Corr K) (c : PvCon K) : PvCon K :=
  let c := { c with aerr := 0 }
  let c :=
    if ∀ i < m.type.dim, k.Kd i = 0 then c
    else match m.type with
      | .CONTACT_6D =>
        let c := { c with verr := c.vc1 }
        { c with aerr := c.aerr - diagMul k.Kd c.verr }
      | .CONTACT_3D =>
        let c := { c with verr := ⟨c.vc1.lin, 0⟩ }
        { c with aerr := ⟨c.aerr.lin - (diagMul k.Kd c.verr).lin, c.aerr.ang⟩ }
  if ∀ i < m.type.dim, k.Kp i = 0 then c
  else match m.type with
    | .CONTACT_6D =>
      let c := { c with perr := -lg c.c1Mc2 }
      { c with aerr := c.aerr - diagMul k.Kp c.perr }
    | .CONTACT_3D =>
      let c := { c with perr := ⟨-c.c1Mc2.trans, c.perr.ang⟩ }
      let c := { c with aerr := ⟨c.aerr.lin, 0⟩ }
      { c with aerr := ⟨c.aerr.lin - (diagMul k.Kp c.perr).lin, c.aerr.ang⟩ }

/-- The state of the loop over the contacts: `lA`, `contact_datas`, `condim_counter`. -/
structure PvLoop (K : Type*) where
  lA : ℕ → ℕ → K
  cd : ℕ → PvCon K
  cnt : ℕ → ℕ

/-- One turn of the loop that updates `lA`, `pv.hxx:468-547, 668-746` -/
def pvContact [DecidableEq K] (lg : SE3 K → Motion K) (ms : ℕ → RCM K) (ks : ℕ → Corr K) (x : PvData K) (k : ℕ)
    (y : PvLoop K) : PvLoop K :=
  let m := ms k
  let j := m.j1
  let c := pvFeedback lg m (ks k) (y.cd k)
  let lA := upd y.lA j (addSeg (y.lA j) (y.cnt j) m.type.dim
    (fun r => -((x.KA j (y.cnt j + r)).lin.dot (x.data.a_gf j).lin)))
  match m.type with
  | .CONTACT_3D =>
    let c := { c with vc1 := m.P1.actInv (x.data.v j) }
    ⟨upd lA j (addSeg (lA j) (y.cnt j) 3
        (fun r => (⟨c.vc1.ang.cross c.vc1.lin - c.aerr.lin, 0⟩ : Motion K).row r)),
      upd y.cd k c, upd y.cnt j (y.cnt j + m.type.dim)⟩
  | .CONTACT_6D =>
    ⟨upd lA j (addSeg (lA j) (y.cnt j) 6 (fun r => -(c.aerr.row r))), upd y.cd k c, upd y.cnt j (y.cnt j + m.type.dim)⟩

/-- `PvRegBackwardStep::algo`, `pv.hxx:213-291` -/
def pvBwd (s : Sys K) (i : ℕ) (x : PvData K) : PvData K :=
  let d := x.data
  let p := s.par i
  let n := s.jnv i
  let bf := -((d.Yaba i).mulMF (x.bias i))
  let d := { d with u := addSeg d.u (s.iv i) n (fun k => -(StF (d.joints i).S (d.f i) k)) }
  let d := { d with joints := upd d.joints i ((d.joints i).calcAba n (d.joints i).S (seg s.arm (s.iv i)) (d.Yaba i)) }
  let d := if p > 0 then
      let d := { d with Yaba := upd d.Yaba i ((d.joints i).down n (d.Yaba i)) }
      let d := { d with
        f := upd d.f i (d.f i + ((d.Yaba i).mulMF (x.bias i)
          + ∑ k ∈ range n, d.u (s.iv i + k) • (d.joints i).UDinv k)) }
      let d := { d with Yaba := upd d.Yaba p (d.Yaba p + (d.liMi i).actOn (d.Yaba i)) }
      { d with f := upd d.f p (d.f p + (d.liMi i).actF (d.f i)) }
    else d
  let jd := d.joints i
  let x : PvData K := { x with data := d }
  let x : PvData K := if x.dim i > 0 then
      { x with KAS := upd x.KAS i (fun c => if c < x.dim i then fun k => (jd.S k).dot (x.KA i c) else x.KAS i c) }
    else x
  let x : PvData K := { x with
    KA := upd x.KA p (putSeg (x.KA p) (x.pind i) (x.dim i) (fun c =>
      (d.liMi i).actF (x.KA i c - ∑ k ∈ range n, x.KAS i c k • jd.UDinv k))) }
  let x : PvData K := { x with
    LA := upd x.LA p (fun r c =>
      if (x.pind i ≤ c ∧ c ≤ r) ∧ r < x.pind i + x.dim i then
        x.LA i (r - x.pind i) (c - x.pind i) + ∑ k ∈ range n, x.KAS i (r - x.pind i) k
          * ∑ l ∈ range n, jd.Dinv k l * x.KAS i (c - x.pind i) l
      else x.LA p r c) }
  if x.dim i > 0 then
    let t := fun k => ∑ l ∈ range n, jd.Dinv k l * ((jd.S l).dot bf + d.u (s.iv i + l))
    let a := comb jd.S n t + x.bias i
    { x with lA := upd x.lA p (putSeg (x.lA p) (x.pind i) (x.dim i) (fun c => x.lA i c + a.dot (x.KA i c))) }
  else x

/-- `PvRegForwardStep2::algo`, `pv.hxx:380-401` -/
def pvFwd2 (s : Sys K) (i : ℕ) (x : PvData K) : PvData K :=
  let d := x.data
  let n := s.jnv i
  let jd := d.joints i
  let d := { d with a := upd d.a i ((d.liMi i).actInv (d.a (s.par i)) + x.bias i) }
  let d := { d with
    ddq := putSeg d.ddq (s.iv i) n (fun k =>
      (∑ l ∈ range n, jd.Dinv k l * d.u (s.iv i + l)) - (d.a i).dot (jd.UDinv k)) }
  let x := { x with
    lamA := upd x.lamA i (fun c => if c < x.dim i then x.lamA (s.par i) (x.pind i + c) else x.lamA i c) }
  let d := { d with
    ddq := addSeg d.ddq (s.iv i) n (fun k =>
      -(∑ c ∈ range (x.dim i), x.lamA i c * ∑ l ∈ range n, jd.Dinv k l * x.KAS i c l)) }
  let d := { d with a := upd d.a i (d.a i + comb jd.S n (seg d.ddq (s.iv i))) }
  { x with data := d }

/-- the matrix that `osim_llt.compute` reads: the lower triangle -/
def lowSym (A : ℕ → ℕ → K) : ℕ → ℕ → K := fun r c => if c ≤ r then A r c else A c r

/-- `osim_llt.solveInPlace(b)` after `osim_llt.compute(A)`, both of size `n`; by the inverse matrix, which is what the
solve returns in exact arithmetic when the matrix is positive definite -/
def pvLlt (n : ℕ) (A : ℕ → ℕ → K) (b : ℕ → K) : ℕ → K :=
  fun r => ∑ c ∈ range n, invBlock n (lowSym A) r c * b c

variable [LinearOrder K]

/-- the proximal loop, `pv.hxx:563-578`, with at most `n` turns -/
def pvProx (st : ProxSet K) : ℕ → PvData K → PvData K
  | 0, x => x
  | n + 1, x =>
    let x := { x with lamA := upd x.lamA 0 (fun r => st.mu * x.prox r + x.lA 0 r) }
    let x := { x with lamA := upd x.lamA 0 (pvLlt (x.dim 0) (x.LA 0) (x.lamA 0)) }
    let x := { x with absRes := infNorm (x.dim 0) (fun r => x.prox r - x.lamA 0 r) }
    if x.absRes ≤ st.absAcc then x
    else pvProx st n { x with prox := x.lamA 0 }

/-- the multipliers, `pv.hxx:555-579` -/
def pvSolve (st : ProxSet K) (x : PvData K) : PvData K :=
  if x.dim 0 > 0 then
    let x := { x with lA := upd x.lA 0 (fun c => x.lA 0 c + (x.data.a_gf 0).dot (x.KA 0 c)) }
    let x := { x with lamA := upd x.lamA 0 (x.lA 0) }
    let x := { x with
      LA := upd x.LA 0 (fun r c => x.LA 0 r c + if r = c ∧ r < x.dim 0 then st.mu else 0) }
    let x := { x with prox := fun _ => 0 }
    pvProx st st.maxIter x
  else x

/-- `data.lA[joint_id].setZero(); data.LA[joint_id].setZero()` for each contact, `pv.hxx:439-446` -/
def pvZero (ms : ℕ → RCM K) (k : ℕ) (x : PvData K) : PvData K :=
  { x with lA := upd x.lA (ms k).j1 (fun _ => 0), LA := upd x.LA (ms k).j1 (fun _ _ => 0) }

/-- the passes before the multipliers, `pv.hxx:425-547`; the contacts are those of the call to `initPvSolver` -/
def pvSetup (lg : SE3 K → Motion K) (s : Sys K) (x : PvData K) (q v tau : ℕ → K) (ms : ℕ → RCM K)
    (ks : ℕ → Corr K) (nc : ℕ) (cd : ℕ → PvCon K) : PvData K × (ℕ → PvCon K) :=
  let bp := decide (∃ k < nc, ¬ ∀ i < (ms k).type.dim, (ks k).Kp i = 0)
  let x := { x with data := { x.data with v := upd x.data.v 0 0, a_gf := upd x.data.a_gf 0 (-s.grav) } }
  let x := { x with
    data := { x.data with a := upd x.data.a 0 (x.data.a_gf 0), f := upd x.data.f 0 0, u := tau } }
  let x := upTo (pvZero ms) nc x
  let x := fwd (pvFwd1 s bp q v) s.n x
  let y := upTo (pvContact lg ms ks x) nc ⟨x.lA, cd, fun _ => 0⟩
  ({ x with lA := y.lA }, y.cd)

/-- `pv(model, data, q, v, tau, contact_models, contact_datas, settings)`, `pv.hxx:393-588`, for contacts that it
accepts (`RCM.PvOk`) and which `initPvSolver` was called with. The results are `data.ddq` and `data.lambdaA[0]`. -/
def pv (lg : SE3 K → Motion K) (s : Sys K) (x : PvData K) (q v tau : ℕ → K) (ms : ℕ → RCM K) (ks : ℕ → Corr K)
    (nc : ℕ) (cd : ℕ → PvCon K) (st : ProxSet K) : PvData K × (ℕ → PvCon K) :=
  let y := pvSetup lg s x q v tau ms ks nc cd
  (fwd (pvFwd2 s) s.n (pvSolve st (bwd (pvBwd s) s.n y.1)), y.2)

end field
end Pin
