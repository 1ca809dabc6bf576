import Verif.Algo.Constraint
import Verif.Algo.ConstraintDynamics
import Verif.Algo.Aba

/-!
# `algorithm/constrained-dynamics.hxx`: `contactABA`

`desired_contact_acceleration` of contact `k` is `des k`. The overload without settings,
`constrained-dynamics.hpp:161-185`, calls this one with default settings.
-/

namespace Pin
open Finset
variable {K : Type*} [Field K]

/-- `Data` with `oa_drift`, `of_augmented`, `oa_augmented`, and the outputs `absolute_residual`, `iter` of the settings -/
structure CtData (K : Type*) where
  data : Data K
  drift : ℕ → Motion K
  aug : ℕ → Force K
  aa : ℕ → Motion K
  absRes : K
  iter : ℕ

/-- the fields `oMc1`, `contact1_velocity`, `contact1_acceleration_drift`, `contact_acceleration_deviation`,
`contact_force` of `RigidConstraintDataTpl`, `algorithm/contact-info.hpp:842-892` -/
structure CtCon (K : Type*) where
  oMc : SE3 K
  vel : Motion K
  adr : Motion K
  dev : Motion K
  force : Force K

/-- `ContactABAForwardStep1::algo`, `constrained-dynamics.hxx:546-587`, and `of_augmented[i].setZero()`, `:790` -/
def ctFwd1 (s : Sys K) (q v : ℕ → K) (i : ℕ) (x : CtData K) : CtData K :=
  let d := x.data
  let d := { d with joints := upd d.joints i ((s.jt i).calcV (s.qs q i) (s.vs v i) (d.joints i)) }
  let d := { d with liMi := upd d.liMi i (s.pl i * (d.joints i).M) }
  let d := { d with oMi := upd d.oMi i (if s.par i > 0 then d.oMi (s.par i) * d.liMi i else d.liMi i) }
  let d := { d with J := putSeg d.J (s.iv i) (s.jnv i) (fun k => (d.oMi i).act ((d.joints i).S k)) }
  let d := { d with ov := upd d.ov i ((d.oMi i).act (d.joints i).v) }
  let d := if s.par i > 0 then { d with ov := upd d.ov i (d.ov i + d.ov (s.par i)) } else d
  let d := { d with oa := upd d.oa i ((d.oMi i).act (d.joints i).c) }
  let d := if s.par i > 0 then { d with oa := upd d.oa i (d.oa i + (d.ov (s.par i)).cross (d.ov i)) } else d
  let x := { x with drift := upd x.drift i (d.oa i) }
  let x := if s.par i > 0 then { x with drift := upd x.drift i (x.drift i + x.drift (s.par i)) } else x
  let d := { d with oYcrb := upd d.oYcrb i ((s.Y i).act (d.oMi i)) }
  let d := { d with oYaba := upd d.oYaba i (d.oYcrb i).matrix }
  let d := { d with of := upd d.of i ((d.oYcrb i).vxiv (d.ov i) - (d.oYcrb i).mul s.grav) }
  { x with data := d, aug := upd x.aug i 0 }

/-- the force of a contact on its joint, `constrained-dynamics.hxx:832-843, 931-944` -/
def ctForce (mu : K) (m : RCM K) (c : CtCon K) : Force K :=
  match m.type with
  | .CONTACT_3D => c.oMc.actF c.force - mu • c.oMc.actF ⟨c.adr.lin, 0⟩
  | .CONTACT_6D => c.oMc.actF c.force - c.oMc.actF ⟨mu • c.adr.lin, mu • c.adr.ang⟩

/-- the inertia that stands for the penalty of a contact, `constrained-dynamics.hxx:807-812` -/
def ctInertia (mu : K) (m : RCM K) (oMc : SE3 K) : Inertia K :=
  ⟨mu, oMc.trans, match m.type with | .CONTACT_3D => ⟨0, 0, 0, 0, 0, 0⟩ | .CONTACT_6D => ⟨mu, 0, mu, 0, 0, mu⟩⟩

/-- what the first loop over the contacts writes to the data of a contact, `constrained-dynamics.hxx:800-802, 815-827` -/
def ctConInit (m : RCM K) (des : Motion K) (x : CtData K) (c : CtCon K) : CtCon K :=
  let c := { c with oMc := x.data.oMi m.j1 * m.P1 }
  let c := { c with vel := c.oMc.actInv (x.data.ov m.j1) }
  let c := { c with adr := des - c.oMc.actInv (x.drift m.j1) }
  match m.type with
  | .CONTACT_3D => { c with adr := ⟨c.adr.lin - c.vel.ang.cross c.vel.lin, c.adr.ang⟩ }
  | .CONTACT_6D => c

/-- one turn of the first loop over the contacts, `constrained-dynamics.hxx:793-844` -/
def ctInit (mu : K) (ms : ℕ → RCM K) (des : ℕ → Motion K) (k : ℕ) (z : CtData K × (ℕ → CtCon K)) :
    CtData K × (ℕ → CtCon K) :=
  let j := (ms k).j1
  let c := ctConInit (ms k) (des k) z.1 (z.2 k)
  let d := z.1.data
  let d := { d with oYaba := upd d.oYaba j (d.oYaba j + (ctInertia mu (ms k) c.oMc).matrix) }
  ({ z.1 with data := d, aug := upd z.1.aug j (ctForce mu (ms k) c) }, upd z.2 k c)

/-- `ContactABABackwardStep1::algo`, `constrained-dynamics.hxx:605-649` -/
def ctBwd (s : Sys K) (tau : ℕ → K) (i : ℕ) (x : CtData K) : CtData K :=
  let S := seg x.data.J (s.iv i)
  let x := { x with aug := upd x.aug i (x.aug i + x.data.of i) }
  let d := x.data
  let d := { d with u := putSeg d.u (s.iv i) (s.jnv i) (fun k => tau (s.iv i + k) - StF S (x.aug i) k) }
  let d := { d with joints := upd d.joints i ((d.joints i).calcAba (s.jnv i) S (seg s.arm (s.iv i)) (d.oYaba i)) }
  if s.par i > 0 then
    let d := { d with oYaba := upd d.oYaba i ((d.joints i).down (s.jnv i) (d.oYaba i)) }
    let x := { x with
      aug := upd x.aug i (x.aug i + ((d.oYaba i).mulMF (d.oa i)
        + ∑ k ∈ range (s.jnv i), d.u (s.iv i + k) • (d.joints i).UDinv k)) }
    let d := { d with oYaba := upd d.oYaba (s.par i) (d.oYaba (s.par i) + d.oYaba i) }
    { x with data := d, aug := upd x.aug (s.par i) (x.aug (s.par i) + x.aug i) }
  else { x with data := d }

/-- `ContactABABackwardStepAugmented::algo`, `constrained-dynamics.hxx:667-699` -/
def ctBwdAug (s : Sys K) (tau : ℕ → K) (i : ℕ) (x : CtData K) : CtData K :=
  let S := seg x.data.J (s.iv i)
  let x := { x with aug := upd x.aug i (x.aug i + x.data.of i) }
  let d := x.data
  let d := { d with u := putSeg d.u (s.iv i) (s.jnv i) (fun k => tau (s.iv i + k) - StF S (x.aug i) k) }
  if s.par i > 0 then
    let x := { x with
      aug := upd x.aug i (x.aug i + ((d.oYaba i).mulMF (d.oa i)
        + ∑ k ∈ range (s.jnv i), d.u (s.iv i + k) • (d.joints i).UDinv k)) }
    { x with data := d, aug := upd x.aug (s.par i) (x.aug (s.par i) + x.aug i) }
  else { x with data := d }

/-- `ContactABAForwardStep2::algo`, `constrained-dynamics.hxx:713-736`, and `of_augmented[i].setZero()`, `:857, 960` -/
def ctFwd2 (s : Sys K) (i : ℕ) (x : CtData K) : CtData K :=
  let d := x.data
  let x := { x with aa := upd x.aa i (d.oa i) }
  let x := if s.par i > 0 then { x with aa := upd x.aa i (x.aa i + x.aa (s.par i)) } else x
  let d := { d with
    ddq := putSeg d.ddq (s.iv i) (s.jnv i) (fun k =>
      (∑ l ∈ range (s.jnv i), (d.joints i).Dinv k l * d.u (s.iv i + l)) - (x.aa i).dot ((d.joints i).UDinv k)) }
  let x := { x with aa := upd x.aa i (x.aa i + comb (seg d.J (s.iv i)) (s.jnv i) (seg d.ddq (s.iv i))) }
  { x with data := d, aug := upd x.aug i 0 }

/-- `contact_acceleration_deviation` of a contact, `constrained-dynamics.hxx:883-889` -/
def ctDev (m : RCM K) (des : Motion K) (x : CtData K) (c : CtCon K) : CtCon K :=
  let c := { c with dev := c.oMc.actInv (x.aa m.j1) - des }
  match m.type with
  | .CONTACT_3D => { c with dev := ⟨c.dev.lin + c.vel.ang.cross c.vel.lin, c.dev.ang⟩ }
  | .CONTACT_6D => c

/-- the new force of a contact, `constrained-dynamics.hxx:923-929` -/
def ctUpd (mu : K) (m : RCM K) (c : CtCon K) : CtCon K :=
  match m.type with
  | .CONTACT_3D => { c with force := ⟨c.force.lin + mu • c.dev.lin, c.force.ang⟩ }
  | .CONTACT_6D => { c with force := c.force + ⟨mu • c.dev.lin, mu • c.dev.ang⟩ }

/-- the entries of `contact_acceleration_deviation` that count: those of the linear part for a `CONTACT_3D`,
`constrained-dynamics.hxx:872-904` -/
def ctMeasure [LinearOrder K] (ms : ℕ → RCM K) (nc : ℕ) (cd : ℕ → CtCon K) : K :=
  upTo (fun k r => max r (infNorm (ms k).type.dim (fun e => (cd k).dev.row e))) nc 0

/-- the second loop over the contacts of a turn, `constrained-dynamics.hxx:914-944` -/
def ctLoad (mu : K) (ms : ℕ → RCM K) (k : ℕ) (z : CtData K × (ℕ → CtCon K)) : CtData K × (ℕ → CtCon K) :=
  let c := ctUpd mu (ms k) (z.2 k)
  ({ z.1 with aug := upd z.1.aug (ms k).j1 (ctForce mu (ms k) c) }, upd z.2 k c)

/-- the two passes over the tree of a turn, `constrained-dynamics.hxx:946-961` -/
def ctPasses (s : Sys K) (tau : ℕ → K) (x : CtData K) : CtData K :=
  fwd (ctFwd2 s) s.n (bwd (ctBwdAug s tau) s.n x)

/-- the loop, `constrained-dynamics.hxx:869-962`; `primal_infeasibility` is the last component -/
def ctLoop [LinearOrder K] (s : Sys K) (tau : ℕ → K) (ms : ℕ → RCM K) (des : ℕ → Motion K) (nc : ℕ) (st : ProxSet K) :
    ℕ → CtData K × (ℕ → CtCon K) → K → (CtData K × (ℕ → CtCon K)) × K
  | 0, z, r => (z, r)
  | n + 1, z, _ =>
    let z := (z.1, upTo (fun k c => upd c k (ctDev (ms k) (des k) z.1 (c k))) nc z.2)
    let r := ctMeasure ms nc z.2
    if r < st.absAcc then (z, r)
    else
      let z := upTo (ctLoad st.mu ms) nc z
      ctLoop s tau ms des nc st n (ctPasses s tau z.1, z.2) r

/-- before the loop, `constrained-dynamics.hxx:785-858` -/
def ctStart (s : Sys K) (x : CtData K) (q v tau : ℕ → K) (ms : ℕ → RCM K) (des : ℕ → Motion K) (nc : ℕ) (cd : ℕ → CtCon K)
    (st : ProxSet K) : CtData K × (ℕ → CtCon K) :=
  let x := fwd (ctFwd1 s q v) s.n x
  let z := upTo (ctInit st.mu ms des) nc (x, cd)
  (fwd (ctFwd2 s) s.n (bwd (ctBwd s tau) s.n z.1), z.2)

/-- `contactABA`, `constrained-dynamics.hxx:749-968`. The counter of the loop hides the variable `it` that is written
to `settings.iter`, `:868-869, 964`, so that `0` is written. -/
def contactABA [LinearOrder K] (s : Sys K) (x : CtData K) (q v tau : ℕ → K) (ms : ℕ → RCM K) (des : ℕ → Motion K)
    (nc : ℕ) (cd : ℕ → CtCon K) (st : ProxSet K) : CtData K × (ℕ → CtCon K) :=
  let z := ctStart s x q v tau ms des nc cd st
  let z := ({ z.1 with iter := 0 }, z.2)
  if nc = 0 then z
  else
    let y := ctLoop s tau ms des nc st st.maxIter z 0
    ({ y.1.1 with iter := 0, absRes := y.2 }, y.1.2)

end Pin
