import Verif.Model.Models
import Verif.Model.View
import Verif.Model.Broadcast
import Mathlib.Algebra.Order.Ring.Abs
/-
Model of the Hamiltonians with conserved quantities, /repo/sources/models.cpp:70-100 and 164-172.

Same simplifications as Model/BTensor.lean and Model/Models.lean.  The entries are an ordered field, so rounding is not
modelled; the operators of these models are real.
-/
namespace QuantiT
namespace BN
open Spec BT
variable {G K : Type}

/-- `linalg::vector_norm(block) > cutoff`, btensor.cpp:2520-2524, for a cutoff that is not negative. -/
def normAbove [Field K] [LinearOrder K] (cutoff : K) (b : Blk K) : Bool :=
  decide (cutoff ^ 2 < ((allIdx b.dims).map fun o => b.f o ^ 2).sum)

/-- `from_basic_tensor_like(shape, values, cutoff)`, btensor.cpp:2537-2543.  The loop ends after as many rounds as there are
block indices. -/
def fromBasicLike [AddCommMonoid G] [DecidableEq G] [Field K] [LinearOrder K] (cutoff : K) (shape : BT G K) (values : Blk K) :
    Res (BT G K) :=
  match fromBasic (normAbove cutoff) values (secCounts shape.shape).prod (sparseZeros shape.shape shape.rule) with
  | some r => r
  | none => Res.ub

/-- `torch::allclose(a, b)` with its default tolerances (relative 1e-5, absolute 1e-8) and its broadcasting. -/
def torchAllclose [Field K] [LinearOrder K] (a b : Blk K) : Res Bool :=
  match bcDims a.dims b.dims with
  | none => Res.throw .runtimeError
  | some d => .ok ((allIdx d).all fun o =>
      decide (|a.f (clip a.dims o) - b.f (clip b.dims o)| ≤ 1 / 10 ^ 8 + 1 / 10 ^ 5 * |b.f (clip b.dims o)|))

/-- One site of `to_bMPO`: conversion and check, models.cpp:74-80, 84-85, 87-88. -/
def siteFromDense [AddCommMonoid G] [DecidableEq G] [Field K] [LinearOrder K] (shape : BT G K) (W : Blk K) : Res (BT G K) := do
  let t ← fromBasicLike (1 / 10 ^ 4) shape W
  let d ← toDense t
  let c ← torchAllclose d W
  if c then .ok t else Res.throw .invalidArgument

/-- `to_bMPO(tmp_hamil, local_shape)`, models.cpp:70-90.  `front()` of an empty chain is undefined behaviour; with one site
the last assignment overwrites the first. -/
def toBMPO [AddCommGroup G] [DecidableEq G] [Field K] [LinearOrder K] (Ws : List (Blk K)) (shape : BT G K) :
    Res (List (BT G K)) :=
  match Ws.head?, Ws.getLast?, (sizes shape.shape).head? with
  | some first, some last, some n => do
    let s0 ← basicCreateView shape [(n : Int) - 1, -1, -1, -1] true
    let front ← siteFromDense s0 first
    let mid ← ((Ws.drop 1).take (Ws.length - 2)).mapM (siteFromDense shape)
    let sl ← basicCreateView shape [-1, -1, 0, -1] true
    let back ← siteFromDense sl last
    .ok (if Ws.length = 1 then [back] else front :: mid ++ [back])
  | _, _, _ => Res.ub

/-- The shape of the local tensors, models.cpp:97 and 169. -/
def localShape [AddCommGroup G] [DecidableEq G] (bond phys : BT G K) : Res (BT G K) :=
  shapeFromList [bond, phys, conj id bond, conj id phys]

/-- `Heisenberg(J, lenght, phys_shape)` up to the call of `to_bMPO`, models.cpp:92-99. -/
def heisenbergBlocks [AddCommGroup G] [DecidableEq G] [Field K] [LinearOrder K] (J : K) (len : Nat) (phys : BT G K) :
    Res (List (BT G K)) := do
  let p0 ← elementQtt phys.shape 0 0
  let p1 ← elementQtt phys.shape 0 1
  let bond : BT G K := sparseZeros [[(1, 0), (1, p0), (1, p1), (1, 0), (1, 0)]] p0
  let local_shape ← localShape bond phys
  let H ← HM.heisenberg J len
  toBMPO H local_shape

/-- `Hubbard(U, mu, lenght, Phys_shape)` up to the call of `to_bMPO`, models.cpp:164-171. -/
def hubbardBlocks [AddCommGroup G] [DecidableEq G] [Field K] [LinearOrder K] (U mu : K) (len : Nat) (phys : BT G K) :
    Res (List (BT G K)) := do
  let p0 ← elementQtt phys.shape 0 0
  let p1 ← elementQtt phys.shape 0 1
  let p2 ← elementQtt phys.shape 0 2
  let bond : BT G K := sparseZeros [[(1, p0), (1, p1), (1, p2), (1, -p1), (1, -p2), (1, p0)]] p0
  let local_shape ← localShape bond phys
  let H ← HM.hubbard U mu len
  toBMPO H local_shape

end BN
end QuantiT
