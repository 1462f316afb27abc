import Verif.Model.Network
import Verif.Model.View
/-
Model of the contractions of block chains: `contract` of MPT.cpp for `bMPS` and `bMPO`, the environments and the
two-site Hamiltonian of dmrg.cpp for block tensors, and their default edges.
Same simplifications as Model/BTensor.lean.  `fuel` bounds the columns visited by each `tensordot` and the blocks
visited by each factory; `none` means that one of them was still running.
-/
namespace QuantiT
namespace BN
open Spec BT
variable {G R : Type}

/-- Sequencing of steps that may throw and may not finish. -/
def andThen {α β : Type} (x : Option (Res α)) (f : α → Option (Res β)) : Option (Res β) :=
  match x with
  | none => none
  | some (.error e) => some (.error e)
  | some (.ok a) => f a

/-! ### `contract` -/

/-- One turn of the loop of `contract` with an operator, MPT.cpp:214-219; with `B = A` it is `compute_left_env`,
dmrg.cpp:425-456.  `c` is the complex conjugation of coefficients. -/
def envLeft [AddCommGroup G] [DecidableEq G] [Semiring R] (fuel : Nat) (c : R → R) (W A B L : BT G R) :
    Option (Res (BT G R)) :=
  andThen (tensordot fuel L A [0] [0]) fun t =>
  andThen (tensordot fuel t W [0, 2] [0, 3]) fun t =>
  tensordot fuel t (conj c B) [0, 2] [0, 1]

/-- The loop of `contract`, MPT.cpp:214-219: over the tensors of `a`; `b[i]` and `obs[i]` are not checked (the assertion
on the lengths is inactive in a release build). -/
def contractLoop [AddCommGroup G] [DecidableEq G] [Semiring R] (fuel : Nat) (c : R → R) :
    List (BT G R) → List (BT G R) → List (BT G R) → BT G R → Option (Res (BT G R))
  | [], _, _, L => some (.ok L)
  | A :: a, B :: b, W :: obs, L => andThen (envLeft fuel c W A B L) fun L => contractLoop fuel c a b obs L
  | _, _, _, _ => some Res.ub

/-- `contract(a, b, obs, left_edge, right_edge)`, MPT.cpp:211-221. -/
def contractOp [AddCommGroup G] [DecidableEq G] [Semiring R] (fuel : Nat) (c : R → R) (a b obs : List (BT G R))
    (L Rt : BT G R) : Option (Res (BT G R)) :=
  andThen (contractLoop fuel c a b obs L) fun L => tensordot fuel L Rt [0, 1, 2] [0, 1, 2]

/-- The loop of `contract` without operator, MPT.cpp:278-282. -/
def normLoop [AddCommGroup G] [DecidableEq G] [Semiring R] (fuel : Nat) (c : R → R) :
    List (BT G R) → List (BT G R) → BT G R → Option (Res (BT G R))
  | [], _, L => some (.ok L)
  | A :: a, B :: b, L =>
    andThen (tensordot fuel L A [0] [0]) fun t =>
    andThen (tensordot fuel t (conj c B) [0, 1] [0, 1]) fun L => normLoop fuel c a b L
  | _, _, _ => some Res.ub

/-- `contract(a, b, left_edge, right_edge)`, MPT.cpp:275-284. -/
def contractNorm [AddCommGroup G] [DecidableEq G] [Semiring R] (fuel : Nat) (c : R → R) (a b : List (BT G R))
    (L Rt : BT G R) : Option (Res (BT G R)) :=
  andThen (normLoop fuel c a b L) fun L => tensordot fuel L Rt [0, 1] [0, 1]

/-! ### Default edges -/

/-- `front()` and `back()` of a chain; undefined on an empty one. -/
def frontOf (s : List (BT G R)) : Res (BT G R) := orUb s.head?
@[inherit_doc frontOf] def backOf (s : List (BT G R)) : Res (BT G R) := orUb s.getLast?

/-- The edges of `contract(a, b)` and the first form of those of `contract(a, b, obs)`, MPT.cpp:226-229 and 287-290. -/
def eyeEdge [AddCommGroup G] [DecidableEq G] [Zero R] [One R] (x y : BT G R) (inds : List Int) : Res (BT G R) := do
  let sx ← shapeFrom x inds
  let sy ← shapeFrom y inds
  let s ← shapeFromList [inverseCvals sx, sy]
  eyeLike s

/-- `contract(a, b)`, MPT.cpp:285-292. -/
def contractNormDefault [AddCommGroup G] [DecidableEq G] [Semiring R] (fuel : Nat) (c : R → R) (a b : List (BT G R)) :
    Option (Res (BT G R)) :=
  andThen (some (do eyeEdge (← frontOf a) (← frontOf b) [-1, 0, 0])) fun L =>
  andThen (some (do eyeEdge (← backOf a) (← backOf b) [0, 0, -1])) fun Rt =>
  contractNorm fuel c a b L Rt

/-- `ones_like(shape)`, btensor.cpp:2375-2380. -/
def onesLike [AddCommGroup G] [DecidableEq G] [Zero R] [One R] (fuel : Nat) (t : BT G R) : Option (Res (BT G R)) :=
  factoryWrap (fun _ _ _ => 1) fuel (sparseZeros t.shape t.rule)

/-- `edge_shape_prep(tens, dim)`, dmrg.cpp:335-344.  `tens_vec[dim]` is not checked.  The two arguments of the last
`shape_from` are evaluated in an order C++ leaves open, and the first one changes `Shape` in place: `late` says that
the second one is evaluated after the first. -/
def edgeShape [AddCommGroup G] [DecidableEq G] (late : Bool) (t : BT G R) (dim : Nat) : Res (BT G R) :=
  if dim < t.shape.length then do
    let s ← shapeFrom t ((List.replicate t.shape.length (0 : Int)).set dim (-1))
    let s ← setRule s 0
    let p ← shapeFrom (if late then inverseCvals s else s) [0]
    shapeFromList [inverseCvals s, p]
  else Res.ub

/-- `contract(a, b, obs)`, MPT.cpp:222-233. -/
def contractOpDefault [AddCommGroup G] [DecidableEq G] [Semiring R] (late : Bool) (fuel : Nat) (c : R → R)
    (a b obs : List (BT G R)) : Option (Res (BT G R)) :=
  andThen (some (do eyeEdge (← frontOf a) (← frontOf b) [-1, 0, 0])) fun L =>
  andThen (some (do eyeEdge (← backOf a) (← backOf b) [0, 0, -1])) fun Rt =>
  andThen (some (do edgeShape late (← frontOf obs) 0)) fun sl =>
  andThen (onesLike fuel sl) fun ol =>
  andThen (tensordot fuel L ol [] []) fun L =>
  andThen (some (permute L [0, 2, 1])) fun L =>
  andThen (some (do edgeShape late (← backOf obs) 2)) fun sr =>
  andThen (onesLike fuel sr) fun or =>
  andThen (tensordot fuel Rt or [] []) fun Rt =>
  andThen (some (permute Rt [0, 2, 1])) fun Rt =>
  contractOp fuel c a b obs L Rt

/-- The shapes of the edges of `generate_env`, dmrg.cpp:381-389. -/
def envEdgeShapes [AddCommGroup G] [DecidableEq G] (late : Bool) (hamil state : List (BT G R)) :
    Res (BT G R × BT G R) := do
  let ls ← edgeShape late (← frontOf state) 0
  let lh ← edgeShape late (← frontOf hamil) 0
  let l ← shapeFromList [ls, lh, inverseCvals ls]
  let rs ← edgeShape late (← backOf state) 2
  let rh ← edgeShape late (← backOf hamil) 2
  let r ← shapeFromList [rs, rh, inverseCvals rs]
  .ok (l, r)

/-- The edges of `generate_env`, dmrg.cpp:381-391. -/
def envEdges [AddCommGroup G] [DecidableEq G] [Zero R] [One R] (late : Bool) (fuel : Nat) (hamil state : List (BT G R)) :
    Option (Res (BT G R × BT G R)) :=
  andThen (some (envEdgeShapes late hamil state)) fun s =>
  andThen (onesLike fuel s.1) fun l =>
  andThen (onesLike fuel s.2) fun r => some (.ok (l, r))

/-! ### Environments and the two-site Hamiltonian -/

/-- `compute_right_env`, dmrg.cpp:469-492. -/
def envRight [AddCommGroup G] [DecidableEq G] [Semiring R] (fuel : Nat) (c : R → R) (W A Rt : BT G R) :
    Option (Res (BT G R)) :=
  andThen (tensordot fuel Rt A [0] [2]) fun t =>
  andThen (tensordot fuel t W [0, 3] [2, 3]) fun t =>
  tensordot fuel t (conj c A) [3, 0] [1, 2]

/-- The second loop of `generate_env`, dmrg.cpp:402-408, over the sites given: the last site first. -/
def rightEnvs [AddCommGroup G] [DecidableEq G] [Semiring R] (fuel : Nat) (c : R → R) :
    List (BT G R) → List (BT G R) → BT G R → Option (Res (BT G R))
  | [], _, Rt => some (.ok Rt)
  | A :: a, W :: Ws, Rt => andThen (rightEnvs fuel c a Ws Rt) fun r => envRight fuel c W A r
  | _, _, _ => some Res.ub

/-- The first loop of `generate_env`, dmrg.cpp:395-401, over the sites given: the first site first. -/
def leftEnvs [AddCommGroup G] [DecidableEq G] [Semiring R] (fuel : Nat) (c : R → R) :
    List (BT G R) → List (BT G R) → BT G R → Option (Res (BT G R))
  | [], _, L => some (.ok L)
  | A :: a, W :: Ws, L => andThen (envLeft fuel c W A A L) fun L => leftEnvs fuel c a Ws L
  | _, _, _ => some Res.ub

/-- One tensor of `compute_2sitesHamil`, dmrg.cpp:504-515. -/
def twoSite [AddCommGroup G] [DecidableEq G] [Semiring R] (fuel : Nat) (W1 W2 : BT G R) : Option (Res (BT G R)) :=
  andThen (tensordot fuel W1 W2 [2] [0]) fun t => some (permute t [0, 1, 3, 4, 2, 5])

/-- `hamil2site_times_state`, dmrg.cpp:521-531. -/
def hamil2site [AddCommGroup G] [DecidableEq G] [Semiring R] (fuel : Nat) (state hamil L Rt : BT G R) :
    Option (Res (BT G R)) :=
  andThen (tensordot fuel L state [0] [0]) fun t =>
  andThen (tensordot fuel t hamil [0, 2, 3] [0, 4, 5]) fun t =>
  tensordot fuel t Rt [1, 4] [0, 1]

end BN
end QuantiT
