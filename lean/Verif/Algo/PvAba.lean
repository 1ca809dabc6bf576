import Verif.Algo.Pv
import Verif.Algo.AbaCore

/-!
# `algorithm/pv.hxx`: `constrainedABA`

The setting is that of `Verif.Algo.Pv`. The counters `lambda_ind` and `condim_counter[joint_id]` of the loops over the
contacts are `conRow ms k` and `pvOwn ms k joint_id` at contact `k`. The solver stops on an assertion unless
`settings.mu > 0`, `pv.hxx:765`.
-/

namespace Pin
open Finset
variable {K : Type*} [Field K]

/-- the penalty of one contact, `pv.hxx:748-756`: all the columns of `KA[joint_id]` are used, for each of the contacts of
the joint -/
def cabaPen (mu : K) (ms : ℕ → RCM K) (k : ℕ) (x : PvData K) : PvData K :=
  let j := (ms k).j1
  let d := x.data
  let d := { d with
    Yaba := upd d.Yaba j (d.Yaba j + ∑ c ∈ range (x.dim j), M6.outer ((1 / mu) • x.KA j c) (x.KA j c)) }
  let d := { d with f := upd d.f j (d.f j + ∑ c ∈ range (x.dim j), (1 / mu * x.lA j c) • x.KA j c) }
  { x with data := d }

/-- `cAbaBackwardStep::algo`, `pv.hxx:169-200` -/
def cabaBwd (s : Sys K) (i : ℕ) (x : PvData K) : PvData K :=
  let d := x.data
  let p := s.par i
  let n := s.jnv i
  let d := { d with u := addSeg d.u (s.iv i) n (fun k => -(StF (d.joints i).S (d.f i) k)) }
  let d := { d with joints := upd d.joints i ((d.joints i).calcAba n (d.joints i).S (seg s.arm (s.iv i)) (d.Yaba i)) }
  let d := if p > 0 then
      let d := { d with Yaba := upd d.Yaba i ((d.joints i).down n (d.Yaba i)) }
      let d := { d with
        f := upd d.f i (d.f i + ((d.Yaba i).mulMF (x.bias i)
          + ∑ k ∈ range n, d.u (s.iv i + k) • (d.joints i).UDinv k)) }
      let d := { d with Yaba := upd d.Yaba p (d.Yaba p + (d.liMi i).actOn (d.Yaba i)) }
      { d with f := upd d.f p (d.f p + (d.liMi i).actF (d.f i)) }
    else d
  { x with data := d }

/-- the residual of one contact into `lambda_c_prox`, `pv.hxx:766-778, 821-835` -/
def cabaProx (ms : ℕ → RCM K) (k : ℕ) (x : PvData K) : PvData K :=
  let j := (ms k).j1
  let c := pvOwn ms k j
  { x with
    prox := putSeg x.prox (conRow ms k) (ms k).type.dim
      (fun r => x.lA j (c + r) + (x.data.a j).dot (x.KA j (c + r))) }

/-- `cAbaForwardStep2::algo`, `pv.hxx:335-354`, on the joints that support a contact (`sup`) or on the others,
`pv.hxx:780-785, 815-820, 846-851` -/
def cabaFwd (s : Sys K) (sup : Bool) (i : ℕ) (x : PvData K) : PvData K :=
  if decide (x.dim i > 0) = sup then
    let d := x.data
    let n := s.jnv i
    let jd := d.joints i
    let d := { d with a := upd d.a i ((d.liMi i).actInv (d.a (s.par i)) + x.bias i) }
    let d := { d with
      ddq := putSeg d.ddq (s.iv i) n (fun k =>
        (∑ l ∈ range n, jd.Dinv k l * d.u (s.iv i + l)) - (d.a i).dot (jd.UDinv k)) }
    let d := { d with a := upd d.a i (d.a i + comb jd.S n (seg d.ddq (s.iv i))) }
    { x with data := d }
  else x

/-- `data.f[j].setZero()` on a joint that supports a contact, `pv.hxx:791-795` -/
def cabaClear (i : ℕ) (x : PvData K) : PvData K :=
  if x.dim i > 0 then { x with data := { x.data with f := upd x.data.f i 0 } } else x

/-- the force of one contact, `pv.hxx:797-808` -/
def cabaLoad (mu : K) (ms : ℕ → RCM K) (k : ℕ) (x : PvData K) : PvData K :=
  let j := (ms k).j1
  let c := pvOwn ms k j
  { x with data := { x.data with
      f := upd x.data.f j (x.data.f j
        + ∑ r ∈ range (ms k).type.dim, (1 / mu * x.prox (conRow ms k + r)) • x.KA j (c + r)) } }

/-- `PvBackwardStepReduced::algo`, `pv.hxx:302-323`, on a joint that supports a contact, `pv.hxx:810-814` -/
def cabaRed (s : Sys K) (i : ℕ) (x : PvData K) : PvData K :=
  if x.dim i > 0 then
    let d := x.data
    let n := s.jnv i
    let jd := d.joints i
    let t := StF jd.S (d.f i)
    let d := { d with u := addSeg d.u (s.iv i) n (fun k => -(t k)) }
    let d := { d with f := upd d.f i (d.f i - ∑ k ∈ range n, t k • jd.UDinv k) }
    let d := if s.par i > 0 then
        { d with f := upd d.f (s.par i) (d.f (s.par i) + (d.liMi i).actF (d.f i)) }
      else d
    { x with data := d }
  else x

/-- one turn of the loop up to the residual, `pv.hxx:790-835` -/
def cabaTurn (s : Sys K) (mu : K) (ms : ℕ → RCM K) (nc : ℕ) (x : PvData K) : PvData K :=
  let x := { x with lamA := upd x.lamA 0 (fun r => x.lamA 0 r + 1 / mu * x.prox r) }
  let x := fwd cabaClear s.n x
  let x := upTo (cabaLoad mu ms) nc x
  let x := bwd (cabaRed s) s.n x
  let x := fwd (cabaFwd s true) s.n x
  upTo (cabaProx ms) nc x

variable [LinearOrder K]

/-- the loop, `pv.hxx:787-844`, with at most `n` turns -/
def cabaLoop (s : Sys K) (st : ProxSet K) (ms : ℕ → RCM K) (nc : ℕ) : ℕ → PvData K → PvData K
  | 0, x => x
  | n + 1, x =>
    let x := cabaTurn s st.mu ms nc x
    let x := { x with absRes := infNorm (x.dim 0) x.prox }
    if x.absRes ≤ st.absAcc then x else cabaLoop s st ms nc n x

/-- the passes before the backward pass, `pv.hxx:622-756`: those of `pv`, but `LA` is not set to zero; then the penalties -/
def cabaSetup (lg : SE3 K → Motion K) (s : Sys K) (x : PvData K) (q v tau : ℕ → K) (ms : ℕ → RCM K)
    (ks : ℕ → Corr K) (nc : ℕ) (cd : ℕ → PvCon K) (mu : K) : PvData K × (ℕ → PvCon K) :=
  let y := pvSetup lg s x q v tau ms ks nc cd
  (upTo (cabaPen mu ms) nc { y.1 with LA := x.LA }, y.2)

/-- `constrainedABA(model, data, q, v, tau, contact_models, contact_datas, settings)`, `pv.hxx:590-854`, for contacts that it
accepts (`RCM.PvOk`) and which `initPvSolver` was called with. The results are `data.ddq` and `data.lambdaA[0]`. -/
def constrainedABA (lg : SE3 K → Motion K) (s : Sys K) (x : PvData K) (q v tau : ℕ → K) (ms : ℕ → RCM K)
    (ks : ℕ → Corr K) (nc : ℕ) (cd : ℕ → PvCon K) (st : ProxSet K) : PvData K × (ℕ → PvCon K) :=
  let y := cabaSetup lg s x q v tau ms ks nc cd st.mu
  let x := bwd (cabaBwd s) s.n y.1
  let x := upTo (cabaProx ms) nc x
  let x := fwd (cabaFwd s true) s.n x
  let x := cabaLoop s st ms nc (st.maxIter - 1) x
  (fwd (cabaFwd s false) s.n x, y.2)

end Pin
