import Verif.Algo.ContactCholesky
import Verif.Algo.Crba

/-!
# `algorithm/constrained-dynamics.hxx` and `algorithm/impulse-dynamics.hxx`: dynamics with rigid constraint models

Models without mimic joint. `contactABA`, in the same file, is not modelled. The size checks of the arguments are not
modelled. The constructors of a constraint refuse the reference frame `WORLD`, so that the check of lines 225-234 and
the cases for it are not modelled.
-/

namespace Pin
open Finset
variable {K : Type*}

/-- The parameters `Kp`, `Kd` of `BaumgarteCorrectorParametersTpl`, `algorithm/contact-info.hpp:62-103`, and the field
`contact_acceleration_desired` of the data of a constraint. -/
structure Corr (K : Type*) where
  Kp : ℕ → K
  Kd : ℕ → K
  des : Motion K

/-- The settings of `ProximalSettingsTpl`, `algorithm/proximal.hpp:24-125` -/
structure ProxSet (K : Type*) where
  absAcc : K
  relAcc : K
  mu : K
  maxIter : ℕ

/-- `contact_chol` (its factors), `primal_dual_contact_solution`, `primal_rhs_contact`, `lambda_c`, `lambda_c_prox`,
`impulse_c`, `dq_after` of `Data`, the outputs `absolute_residual`, `relative_residual`, `iter` of the settings and the
`contact_force` of the constraints. -/
structure CDyn (K : Type*) where
  data : Data K
  chol : Chol K
  sol : ℕ → K
  rhs : ℕ → K
  lam : ℕ → K
  prox : ℕ → K
  impulse : ℕ → K
  dqAfter : ℕ → K
  absRes : K
  relRes : K
  iter : ℕ
  forces : List (Force K)

section ring
variable [CommRing K]

/-- `K.asDiagonal() * m.toVector()` -/
def diagMul (k : ℕ → K) (m : Motion K) : Motion K :=
  ⟨⟨k 0 * m.lin.x, k 1 * m.lin.y, k 2 * m.lin.z⟩, ⟨k 3 * m.ang.x, k 4 * m.ang.y, k 5 * m.ang.z⟩⟩

/-- `ForceRef(x.segment<6>(i))` -/
def forceAt (x : ℕ → K) (i : ℕ) : Force K := ⟨⟨x i, x (i + 1), x (i + 2)⟩, ⟨x (i + 3), x (i + 4), x (i + 5)⟩⟩

/-- What the loop over the constraints computes for one of them: `contact1_velocity`, `contact2_velocity`,
`contact_placement_error`, `contact_velocity_error`, `contact_acceleration_error`, `contact1_acceleration_drift`,
`contact2_acceleration_drift`. -/
structure ConOut (K : Type*) where
  vc1 : Motion K
  vc2 : Motion K
  perr : Motion K
  verr : Motion K
  aerr : Motion K
  acc1 : Motion K
  acc2 : Motion K

/-- One turn of the loop over the constraints, `algorithm/constrained-dynamics.hxx:290-427`; `lg` is `log6`, modelled in
`LieGroup/ExpLog.lean`. The test for zero gains, lines 350-354, is kept. -/
def RCM.drift [DecidableEq K] (lg : SE3 K → Motion K) (m : RCM K) (k : Corr K) (c : RCD K) (d : Data K) : ConOut K :=
  let vc1 := if m.j1 > 0 then c.oMc1.actInv (d.ov m.j1) else 0
  let vc2 := if m.j2 > 0 then c.oMc2.actInv (d.ov m.j2) else 0
  let vc2in1 := c.c1Mc2.act vc2
  let perr : Motion K := match m.type with
    | .CONTACT_6D => -lg c.c1Mc2
    | .CONTACT_3D => ⟨-c.c1Mc2.trans, 0⟩
  let verr : Motion K := match m.type with
    | .CONTACT_6D => vc1 - vc2in1
    | .CONTACT_3D => ⟨vc1.lin - c.c1Mc2.rot.mulVec vc2.lin, 0⟩
  let aerr : Motion K :=
    if (∀ i < m.type.dim, k.Kp i = 0) ∧ (∀ i < m.type.dim, k.Kd i = 0) then 0
    else match m.type with
      | .CONTACT_6D => -diagMul k.Kp perr - diagMul k.Kd verr
      | .CONTACT_3D => ⟨-(diagMul k.Kp perr).lin - (diagMul k.Kd verr).lin, 0⟩
  match m.rf with
  | .LOCAL_WORLD_ALIGNED =>
    let l1 := (d.oa m.j1).lin + (d.oa m.j1).ang.cross c.oMc1.trans
    let l1 := if m.type = .CONTACT_3D then
      l1 + (d.ov m.j1).ang.cross ((d.ov m.j1).lin + (d.ov m.j1).ang.cross c.oMc1.trans) else l1
    let acc1 : Motion K := ⟨l1, (d.oa m.j1).ang⟩
    let acc2 : Motion K := match m.type with
      | .CONTACT_3D => ⟨(d.oa m.j2).lin + (d.oa m.j2).ang.cross c.oMc2.trans
          + (d.ov m.j2).ang.cross ((d.ov m.j2).lin + (d.ov m.j2).ang.cross c.oMc2.trans), 0⟩
      | .CONTACT_6D => ⟨(d.oa m.j2).lin + (d.oa m.j2).ang.cross c.oMc1.trans, (d.oa m.j2).ang⟩
    ⟨vc1, vc2, perr, verr, ⟨c.oMc1.rot.mulVec aerr.lin, c.oMc1.rot.mulVec aerr.ang⟩, acc1, acc2⟩
  | .LOCAL =>
    let acc1 := c.oMc1.actInv (d.oa m.j1)
    let acc1 : Motion K := match m.type with
      | .CONTACT_3D => ⟨acc1.lin + vc1.ang.cross vc1.lin, 0⟩
      | .CONTACT_6D => acc1 + verr.cross vc2in1
    let acc2 : Motion K := match m.type with
      | .CONTACT_3D => ⟨c.oMc1.rot.tr.mulVec ((d.oa m.j2).lin + (d.oa m.j2).ang.cross c.oMc2.trans
          + (d.ov m.j2).ang.cross ((d.ov m.j2).lin + (d.ov m.j2).ang.cross c.oMc2.trans)), 0⟩
      | .CONTACT_6D => c.oMc1.actInv (d.oa m.j2)
    ⟨vc1, vc2, perr, verr, aerr, acc1, acc2⟩

/-- the entries written into `primal_rhs_contact`, `algorithm/constrained-dynamics.hxx:429-446` -/
def RCM.rhs [DecidableEq K] (lg : SE3 K → Motion K) (m : RCM K) (k : Corr K) (c : RCD K) (d : Data K) : Motion K :=
  let o := m.drift lg k c d; -o.acc1 + o.acc2 + o.aerr + k.des

/-- `pre_impact_velocity`, `algorithm/impulse-dynamics.hxx:97-128`; the placement is recomputed from `data.oMi`. -/
def RCM.preImpact (m : RCM K) (d : Data K) : Motion K :=
  let oMc := d.oMi m.j1 * m.P1
  let ov := d.ov m.j1
  match m.rf with
  | .LOCAL_WORLD_ALIGNED => ⟨ov.lin - oMc.trans.cross ov.ang, ov.ang⟩
  | .LOCAL => oMc.actInv ov

/-- the loop that writes one segment per constraint -/
def fillSegs {α : Type*} (dim : α → ℕ) (f : α → ℕ → K) (cs : List α) (x : ℕ → K) : ℕ → K :=
  (cs.foldl (fun (y : (ℕ → K) × ℕ) m => (putSeg y.1 y.2 (dim m) (f m), y.2 + dim m)) (x, 0)).1

/-- `contact_force` of a constraint whose rows start at `i`, `algorithm/constrained-dynamics.hxx:500-516` -/
def RCM.forceAt (m : RCM K) (sol : ℕ → K) (i : ℕ) : Force K :=
  match m.type with
  | .CONTACT_3D => ⟨-(Pin.forceAt sol i).lin, 0⟩
  | .CONTACT_6D => -Pin.forceAt sol i

/-- the contact forces, `algorithm/constrained-dynamics.hxx:490-519`, `algorithm/impulse-dynamics.hxx:155-184` -/
def contactForces (sol : ℕ → K) (ms : List (RCM K)) : List (Force K) :=
  (ms.foldl (fun (y : List (Force K) × ℕ) m => (y.1 ++ [m.forceAt sol y.2], y.2 + m.type.dim)) ([], 0)).1

end ring

section field
variable [Field K] [LinearOrder K] [HasEps K]

/-- `ContactAndImpulseDynamicsForwardStep::algo`, `algorithm/constrained-dynamics.hxx:99-121` -/
def rcFwdA (s : Sys K) (q v : ℕ → K) (i : ℕ) (d : Data K) : Data K :=
  let p := s.par i
  let d := { d with joints := upd d.joints i ((s.jt i).calcV (s.qs q i) (s.vs v i) (d.joints i)) }
  let d := { d with liMi := upd d.liMi i (s.pl i * (d.joints i).M) }
  let d := { d with oMi := upd d.oMi i (if p > 0 then d.oMi p * d.liMi i else d.liMi i) }
  let d := { d with ov := upd d.ov i ((d.oMi i).act (d.joints i).v) }
  let d := { d with ov := if p > 0 then upd d.ov i (d.ov i + d.ov p) else d.ov }
  let d := { d with J := putSeg d.J (s.iv i) (s.jnv i) (fun k => (d.oMi i).act ((d.joints i).S k)) }
  let d := { d with oinertias := upd d.oinertias i ((s.Y i).act (d.oMi i)) }
  { d with oYcrb := upd d.oYcrb i (d.oinertias i) }

/-- `ContactAndImpulseDynamicsForwardStep::algo`, `algorithm/constrained-dynamics.hxx:122-137`: the part for contacts -/
def rcFwdB (s : Sys K) (i : ℕ) (d : Data K) : Data K :=
  let p := s.par i
  let d := { d with oh := upd d.oh i ((d.oinertias i).mul (d.ov i)) }
  let d := { d with oa := upd d.oa i ((d.oMi i).act (d.joints i).c) }
  let d := { d with
    oa := if p > 0 then
      let oa := upd d.oa i (d.oa i + (d.ov p).cross (d.ov i))
      upd oa i (oa i + oa p)
    else d.oa }
  let d := { d with oa_gf := upd d.oa_gf i (d.oa i - s.grav) }
  { d with of := upd d.of i ((d.oinertias i).mul (d.oa_gf i) + (d.ov i).crossF (d.oh i)) }

/-- `ContactAndImpulseDynamicsForwardStep::algo`, `algorithm/constrained-dynamics.hxx:87-137`; `contact` is its
`ContactMode` -/
def rcFwd (s : Sys K) (contact : Bool) (q v : ℕ → K) (i : ℕ) (d : Data K) : Data K :=
  let d := rcFwdA s q v i d
  if contact then rcFwdB s i d else d

/-- `ContactAndImpulseDynamicsBackwardStep::algo`, `algorithm/constrained-dynamics.hxx:154-179` -/
def rcBwd (s : Sys K) (contact : Bool) (i : ℕ) (d : Data K) : Data K :=
  let p := s.par i
  let d := { d with dFda := putSeg d.dFda (s.iv i) (s.jnv i) (fun k => (d.oYcrb i).mul (d.J (s.iv i + k))) }
  let d := { d with
    M := putBlock d.M (s.iv i) (s.iv i) (s.jnv i) (s.nvSub i)
      (fun r c => (d.J (s.iv i + r)).dot (d.dFda (s.iv i + c))) }
  let d := { d with oYcrb := upd d.oYcrb p (Inertia.addAssign (d.oYcrb p) (d.oYcrb i)) }
  if contact then
    let d := { d with nle := putSeg d.nle (s.iv i) (s.jnv i) (fun k => (d.J (s.iv i + k)).dot (d.of i)) }
    { d with of := upd d.of p (d.of p + d.of i) }
  else d

/-- `com[0]` and the centroidal map, `algorithm/constrained-dynamics.hxx:268-276` -/
def rcAg (s : Sys K) (d : Data K) : Data K :=
  let d := { d with com := upd d.com 0 (d.oYcrb 0).lever }
  let d := { d with Ag := d.dFda }
  { d with
    Ag := fun c => if c < s.nv then
      ⟨(d.Ag c).lin, (d.Ag c).ang + (d.Ag c).lin.cross (d.com 0)⟩ else d.Ag c }

/-- the passes of `constraintDynamics`, `algorithm/constrained-dynamics.hxx:240-276` -/
def rcPasses (s : Sys K) (d : Data K) (q v : ℕ → K) : Data K :=
  let d := { d with oYcrb := upd d.oYcrb 0 0, of := upd d.of 0 0, oa := upd d.oa 0 0, ov := upd d.ov 0 0 }
  let d := fwd (rcFwd s true q v) s.n d
  let d := bwd (rcBwd s true) s.n d
  let d := addArmature s d
  rcAg s d

/-- the passes of `impulseDynamics`, `algorithm/impulse-dynamics.hxx:60-78`; `data.ov[0]` is not set -/
def impPasses (s : Sys K) (d : Data K) (q v : ℕ → K) : Data K :=
  let d := { d with oYcrb := upd d.oYcrb 0 0 }
  let d := fwd (rcFwd s false q v) s.n d
  let d := bwd (rcBwd s false) s.n d
  addArmature s d

/-- `x.head(n).lpNorm<Infinity>()` -/
def infNorm (n : ℕ) (x : ℕ → K) : K := upTo (fun i m => max m |x i|) n 0

/-- one turn of the proximal loop, `algorithm/constrained-dynamics.hxx:456-475`; `rhs` is `tau - data.nle` -/
def proxStep (t : CTab) (mu : K) (tau : ℕ → K) (x : CDyn K) : CDyn K :=
  let x := { x with iter := x.iter + 1 }
  let x := { x with sol := putSeg x.sol 0 t.nc (fun r => x.rhs r + x.prox r * mu) }
  let x := { x with sol := putSeg x.sol t.nc t.nv (fun r => tau r - x.data.nle r) }
  let x := { x with sol := t.solve x.chol x.sol }
  let x := { x with lam := t.delassusApply x.chol x.sol }
  let x := { x with lam := fun r => x.lam r - (mu * x.sol r + x.rhs r) }
  let x := { x with absRes := infNorm t.nc x.lam, relRes := infNorm t.nc (fun r => x.sol r + x.prox r) }
  { x with prox := fun r => -x.sol r }

/-- the proximal loop, `algorithm/constrained-dynamics.hxx:454-484`, with at most `n` turns -/
def proxLoop (t : CTab) (st : ProxSet K) (tau : ℕ → K) : ℕ → CDyn K → CDyn K
  | 0, x => x
  | n + 1, x =>
    let x := proxStep t st.mu tau x
    if x.absRes ≤ st.absAcc ∨ x.relRes ≤ st.relAcc then x else proxLoop t st tau n x

/-- `constraintDynamics`, `algorithm/constrained-dynamics.hxx:184-522`, with no value when it throws. `t` holds the
tables that `initConstraintDynamics` allocates, `cs` the constraints. -/
def constraintDynamics (lg : SE3 K → Motion K) (s : Sys K) (t : CTab) (x : CDyn K) (q v tau : ℕ → K)
    (cs : List (RCM K × Corr K)) (st : ProxSet K) : Option (CDyn K) :=
  if 0 ≤ st.mu then
    let x := { x with data := rcPasses s x.data q v }
    (t.compute s x.data (cs.map Prod.fst) (fun _ => st.mu) x.chol).map fun chol =>
      let x := { x with chol := chol }
      let x := { x with sol := putSeg x.sol t.nc t.nv (fun r => tau r - x.data.nle r) }
      let x := { x with
        rhs := fillSegs (fun m : RCM K × Corr K => m.1.type.dim)
          (fun m => (m.1.rhs lg m.2 (m.1.calc x.data) x.data).row) cs x.rhs }
      let x := { x with iter := 0, prox := fun _ => 0 }
      let x := proxLoop t st tau st.maxIter x
      let x := { x with data := { x.data with ddq := fun r => x.sol (t.nc + r) }, lam := fun r => -x.sol r }
      { x with forces := contactForces x.sol (cs.map Prod.fst) }
  else none

/-- `impulseDynamics`, `algorithm/impulse-dynamics.hxx:15-186`, with no value when it throws -/
def impulseDynamicsC (s : Sys K) (t : CTab) (x : CDyn K) (q v : ℕ → K) (ms : List (RCM K)) (e mu : K) :
    Option (CDyn K) :=
  if 0 ≤ mu ∧ (0 ≤ e ∧ e ≤ 1) then
    let x := { x with data := impPasses s x.data q v }
    (t.compute s x.data ms (fun _ => mu) x.chol).map fun chol =>
      let x := { x with chol := chol }
      let x := { x with data := rcAg s x.data }
      let x := { x with sol := putSeg x.sol t.nc t.nv (fun _ => 0) }
      let x := { x with
        sol := fillSegs (fun m : RCM K => m.type.dim) (fun m => (-(1 + e) • m.preImpact x.data).row) ms x.sol }
      let x := { x with sol := t.solve x.chol x.sol }
      let x := { x with data := { x.data with ddq := fun r => x.sol (t.nc + r) } }
      let x := { x with dqAfter := fun r => x.data.ddq r + v r, impulse := fun r => -x.sol r }
      { x with forces := contactForces x.sol ms }
  else none

end field
end Pin
