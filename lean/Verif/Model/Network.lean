import Verif.Model.Mps
import Verif.Spec.Network
/-
Model of the contractions of dense chains: `contract` of MPT.cpp, the environments and the two-site Hamiltonian of
dmrg.cpp, and the shapes their edges are made from.
-/
namespace QuantiT
namespace MP
open Finset Spec
variable {R : Type}

/-- `torch::tensordot(a, b, da, db)`.  torch's broadcasting of a contracted dimension of size one is not modelled: any
difference in size is an error here. -/
def tdot [Semiring R] (a b : Blk R) (da db : List Nat) : Res (Blk R) :=
  if da.length ≠ db.length then Res.throw .runtimeError
  else if ¬ ((∀ i ∈ da, i < a.dims.length) ∧ ∀ i ∈ db, i < b.dims.length) then Res.throw .outOfRange
  else if ¬ (da.Nodup ∧ db.Nodup) then Res.throw .runtimeError
  else if da.map (a.dims.getD · 0) ≠ db.map (b.dims.getD · 0) then Res.throw .runtimeError
  else
    let fa := others da a.dims.length
    let fb := others db b.dims.length
    .ok ⟨fa.map (a.dims.getD · 0) ++ fb.map (b.dims.getD · 0), fun o =>
      ∑ k ∈ configs (da.map (a.dims.getD · 0)),
        a.f (place da (o.take fa.length) k) * b.f (place db (o.drop fa.length) k)⟩

/-! ### `contract` -/

/-- One turn of the loop of `contract` with an operator, MPT.cpp:238-243; with `B = A` it is `compute_left_env`,
dmrg.cpp:425-456.  `c` is the complex conjugation. -/
def envLeft [Semiring R] (c : R → R) (W A B L : Blk R) : Res (Blk R) := do
  let t ← tdot L A [0] [0]
  let t ← tdot t W [0, 2] [0, 3]
  tdot t (conjBlk c B) [0, 2] [0, 1]

/-- The loop of `contract`, MPT.cpp:238-243: over the tensors of `a`; `b[i]` and `obs[i]` are not checked (the assertion
on the lengths is inactive in a release build). -/
def contractLoop [Semiring R] (c : R → R) : List (Blk R) → List (Blk R) → List (Blk R) → Blk R → Res (Blk R)
  | [], _, _, L => .ok L
  | A :: a, B :: b, W :: obs, L => do
    let L ← envLeft c W A B L
    contractLoop c a b obs L
  | _, _, _, _ => Res.ub

/-- `contract(a, b, obs, left_edge, right_edge)`, MPT.cpp:234-245. -/
def contractOp [Semiring R] (c : R → R) (a b obs : List (Blk R)) (L Rt : Blk R) : Res (Blk R) := do
  let L ← contractLoop c a b obs L
  tdot L Rt [0, 1, 2] [0, 1, 2]

/-- The loop of `contract` without operator, MPT.cpp:261-265. -/
def normLoop [Semiring R] (c : R → R) : List (Blk R) → List (Blk R) → Blk R → Res (Blk R)
  | [], _, L => .ok L
  | A :: a, B :: b, L => do
    let t ← tdot L A [0] [0]
    let L ← tdot t (conjBlk c B) [0, 1] [0, 1]
    normLoop c a b L
  | _, _, _ => Res.ub

/-- `contract(a, b, left_edge, right_edge)`, MPT.cpp:258-267. -/
def contractNorm [Semiring R] (c : R → R) (a b : List (Blk R)) (L Rt : Blk R) : Res (Blk R) := do
  let L ← normLoop c a b L
  tdot L Rt [0, 1] [0, 1]

/-! ### Shapes of dense tensors -/

/-- Loop of `shape_from(const torch_shape&, inds)`, btensor.cpp:2297-2304: writes through `it` before looking at the
index, then moves on if the index is `-1`.  A write past the end of `sizes` and a read past the end of the shape are
undefined behaviour. -/
def selectLoop : List Int → List Nat → Nat → List Nat → Res (List Nat)
  | [], _, _, out => .ok out
  | ind :: inds, shape, it, out =>
    match shape with
    | [] => Res.ub
    | n :: shape =>
      if it < out.length then selectLoop inds shape (if ind = -1 then it + 1 else it) (out.set it n) else Res.ub

/-- `shape_from(const torch_shape&, inds)`, btensor.cpp:2286-2307. -/
def selectShape (shape : List Nat) (inds : List Int) : Res (List Nat) :=
  let rank := inds.count (-1)
  if rank = 0 then .ok [] else selectLoop inds shape 0 (List.replicate rank 0)

/-- `eye_like(shape)` of a dense shape, btensor.h:1346-1350. -/
def eyeLike [Zero R] [One R] (shape : List Nat) : Res (Blk R) :=
  if shape.length ≠ 2 then Res.throw .invalidArgument
  else .ok ⟨shape, fun o => if o.getD 0 0 = o.getD 1 0 then 1 else 0⟩

/-- `ones_like(shape)` of a dense shape, btensor.h:1351-1354. -/
def onesLike [One R] (shape : List Nat) : Blk R := ⟨shape, fun _ => 1⟩

/-- `front()` / `[0]` and `back()` of a chain; undefined on an empty one. -/
def frontOf (s : List (Blk R)) : Res (Blk R) := BT.orUb s.head?
@[inherit_doc frontOf] def backOf (s : List (Blk R)) : Res (Blk R) := BT.orUb s.getLast?

/-- The first two edges of `contract`, MPT.cpp:249-252 and 270-271; on `torch_shape`, `inverse_cvals_` does nothing and
`shape_from` of two shapes is their concatenation (btensor.cpp:2267-2285). -/
def eyeEdge [Zero R] [One R] (x y : Blk R) (inds : List Int) : Res (Blk R) := do
  let sx ← selectShape x.dims inds
  let sy ← selectShape y.dims inds
  eyeLike (sx ++ sy)

/-- `contract(a, b)`, MPT.cpp:268-273. -/
def contractNormDefault [Semiring R] (c : R → R) (a b : List (Blk R)) : Res (Blk R) := do
  let L ← eyeEdge (← frontOf a) (← frontOf b) [-1, 0, 0]
  let Rt ← eyeEdge (← backOf a) (← backOf b) [0, 0, -1]
  contractNorm c a b L Rt

/-- `contract(a, b, obs)`, MPT.cpp:247-257. -/
def contractOpDefault [Semiring R] (c : R → R) (a b obs : List (Blk R)) : Res (Blk R) := do
  let L ← eyeEdge (← frontOf a) (← frontOf b) [-1, 0, 0]
  let Rt ← eyeEdge (← backOf a) (← backOf b) [0, 0, -1]
  let L ← tdot L (onesLike (← selectShape (← frontOf obs).dims [-1, 0, 0, 0])) [] []
  let L ← BT.permBlk [0, 2, 1] L
  let Rt ← tdot Rt (onesLike (← selectShape (← backOf obs).dims [0, 0, -1, 0])) [] []
  let Rt ← BT.permBlk [0, 2, 1] Rt
  contractOp c a b obs L Rt

/-! ### Environments and the two-site Hamiltonian -/

/-- `edge_shape_prep` of a dense tensor, dmrg.cpp:335-343.  `tens_vec[dim]` is not checked.  The inner
`shape_from(Shape, {0})` selects nothing. -/
def edgeShape (dims : List Nat) (dim : Nat) : Res (List Nat) :=
  if dim < dims.length then do
    let s ← selectShape dims ((List.replicate dims.length (0 : Int)).set dim (-1))
    .ok (s ++ [])
  else Res.ub

/-- The edges of `generate_env`, dmrg.cpp:381-391, dense. -/
def envEdges [One R] (hamil state : List (Blk R)) : Res (Blk R × Blk R) := do
  let ls ← edgeShape (← frontOf state).dims 0
  let lh ← edgeShape (← frontOf hamil).dims 0
  let rs ← edgeShape (← backOf state).dims 2
  let rh ← edgeShape (← backOf hamil).dims 2
  .ok (onesLike (ls ++ lh ++ ls), onesLike (rs ++ rh ++ rs))

/-- `compute_right_env`, dmrg.cpp:469-492. -/
def envRight [Semiring R] (c : R → R) (W A Rt : Blk R) : Res (Blk R) := do
  let t ← tdot Rt A [0] [2]
  let t ← tdot t W [0, 3] [2, 3]
  tdot t (conjBlk c A) [3, 0] [1, 2]

/-- The second loop of `generate_env`, dmrg.cpp:402-408, over the sites given: the last site first. -/
def rightEnvs [Semiring R] (c : R → R) : List (Blk R) → List (Blk R) → Blk R → Res (Blk R)
  | [], _, Rt => .ok Rt
  | A :: a, W :: Ws, Rt => do
    let r ← rightEnvs c a Ws Rt
    envRight c W A r
  | _, _, _ => Res.ub

/-- The first loop of `generate_env`, dmrg.cpp:395-401, over the sites given: the first site first. -/
def leftEnvs [Semiring R] (c : R → R) : List (Blk R) → List (Blk R) → Blk R → Res (Blk R)
  | [], _, L => .ok L
  | A :: a, W :: Ws, L => do
    let L ← envLeft c W A A L
    leftEnvs c a Ws L
  | _, _, _ => Res.ub

/-- One tensor of `compute_2sitesHamil`, dmrg.cpp:504-515. -/
def twoSite [Semiring R] (W1 W2 : Blk R) : Res (Blk R) := do
  let t ← tdot W1 W2 [2] [0]
  BT.permBlk [0, 1, 3, 4, 2, 5] t

/-- `hamil2site_times_state`, dmrg.cpp:521-531. -/
def hamil2site [Semiring R] (state hamil L Rt : Blk R) : Res (Blk R) := do
  let t ← tdot L state [0] [0]
  let t ← tdot t hamil [0, 2, 3] [0, 4, 5]
  tdot t Rt [1, 4] [0, 1]

end MP
end QuantiT
