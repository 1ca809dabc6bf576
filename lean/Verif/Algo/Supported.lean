import Verif.Algo.Jacobian
import Verif.Algo.Rnea

/-!
# What a frame supports

`computeSupportedInertiaByFrame` and `computeSupportedForceByFrame`, `algorithm/frames.hxx`. The frames of the model are
a function of their index and a number; `subtrees` is `model.subtrees`. The check of `data` is not modelled.
-/

namespace Pin
variable {K : Type*} [Field K] [LinearOrder K] [HasEps K]

/-- the body of the loop on the frames, `algorithm/frames.hxx:389-400`: the list `child_frames` and the inertia -/
def supportedStep (frames : ℕ → Frame K) (joint_id : ℕ) (st : List ℕ × Inertia K) (i : ℕ) : List ℕ × Inertia K :=
  if (frames i).parentJoint ≠ joint_id then st
  else if (frames i).parentFrame ∉ st.1 then st
  else (st.1 ++ [i], Inertia.addAssign st.2 ((frames i).inertia.act (frames i).placement))

/-- the inertia of a frame and of its child frames, in the frame of their joint, `algorithm/frames.hxx:382-400` -/
def supportedInBody (frames : ℕ → Frame K) (nframes f : ℕ) : List ℕ × Inertia K :=
  (List.range' (f + 1) (nframes - (f + 1))).foldl (supportedStep frames (frames f).parentJoint)
    ([f], (frames f).inertia.act (frames f).placement)

/-- `computeSupportedInertiaByFrame`, `algorithm/frames.hxx:372-422` -/
def computeSupportedInertiaByFrame (s : Sys K) (subtrees : ℕ → List ℕ) (frames : ℕ → Frame K) (nframes : ℕ) (d : Data K)
    (f : ℕ) (with_subtree : Bool) : Inertia K :=
  let joint_id := (frames f).parentJoint
  let I := (supportedInBody frames nframes f).2
  if !with_subtree then I.actInv (frames f).placement
  else
    let I := I.act (d.oMi joint_id)
    -- the first joint of the subtree is skipped
    let I := (subtrees joint_id).tail.foldl (fun I j => Inertia.addAssign I ((s.Y j).act (d.oMi j))) I
    let oMf := d.oMi joint_id * (frames f).placement
    I.actInv oMf

/-- `computeSupportedForceByFrame`, `algorithm/frames.hxx:424-461` -/
def computeSupportedForceByFrame (s : Sys K) (subtrees : ℕ → List ℕ) (frames : ℕ → Frame K) (nframes : ℕ) (d : Data K)
    (f : ℕ) : Force K :=
  let joint_id := (frames f).parentJoint
  let placement := (frames f).placement
  let fI := computeSupportedInertiaByFrame s subtrees frames nframes d f false
  let oMf := d.oMi joint_id * placement
  let v := getFrameVelocity d joint_id placement .LOCAL
  let a := getFrameAcceleration d joint_id placement .LOCAL
  let F := fI.vxiv v + fI.mul (a - oMf.actInv s.grav)
  let F := placement.actF F
  let F := (subtrees joint_id).tail.foldl
    (fun F j => if s.par j ≠ joint_id then F else F + (d.liMi j).actF (d.f j)) F
  placement.actInvF F

end Pin
