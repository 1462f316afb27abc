import Verif.Spec.View
import Verif.Model.BTensor
import Verif.Spec.Network
import Mathlib.Algebra.Order.Field.Basic
/-
Turning a dense matrix product operator into one of block tensors.
-/
namespace QuantiT.Spec
open Finset
variable {G K : Type}

/-- Total charge of an entry: the charges of the sections its indices lie in. -/
def entryCharge [AddCommMonoid G] : Shape G → List Nat → G
  | d :: ds, x :: xs => chargeAt d x + entryCharge ds xs
  | _, _ => 0

/-- Two entries lie in the same block. -/
def SameBlock (sh : Shape G) (e e' : List Nat) : Prop := (locateAll sh e).map Prod.fst = (locateAll sh e').map Prod.fst

instance (sh : Shape G) (e e' : List Nat) : Decidable (SameBlock sh e e') := by unfold SameBlock; infer_instance

/-- Sum of the squares of the entries of `W` in the block that contains `e`. -/
def blockWeight [Semiring K] (sh : Shape G) (W : Blk K) (e : List Nat) : K :=
  ∑ e' ∈ (configs (sh.map dimSize)).filter (SameBlock sh e), W.f e' ^ 2

/-- The entry has the charge of the selection rule, and the block it lies in has a norm above 1e-4. -/
def Survives [AddCommMonoid G] [Field K] [LinearOrder K] (sh : Shape G) (rule : G) (W : Blk K) (e : List Nat) : Prop :=
  entryCharge sh e = rule ∧ (1 / 10 ^ 4) ^ 2 < blockWeight sh W e

/-- So small that `allclose` does not tell zero from it. -/
def Negligible [Field K] [LinearOrder K] (x : K) : Prop := |x| ≤ 1 / 10 ^ 8 + 1 / 10 ^ 5 * |x|

/-- Every entry survives or is negligible. -/
def Convertible [AddCommMonoid G] [Field K] [LinearOrder K] (sh : Shape G) (rule : G) (W : Blk K) : Prop :=
  ∀ e, InRange e W.dims → Survives sh rule W e ∨ Negligible (W.f e)

/-- The block tensor `T` has the given shape and rule, the surviving entries of `W`, and zeros elsewhere. -/
structure Converted [AddCommMonoid G] [Field K] [LinearOrder K] (sh : Shape G) (q : G) (W : Blk K) (T : BT G K) : Prop where
  shape : T.shape = sh
  rule : T.rule = q
  conserving : Conserving T.shape T.rule T.blocks
  kept : ∀ e, InRange e W.dims → Survives sh q W e → entry T.shape T.blocks e = W.f e
  lost : ∀ e, InRange e W.dims → ¬ Survives sh q W e → entry T.shape T.blocks e = 0

/-- Shape of the tensor of site `i` out of `L`, made from the shape of a tensor in the bulk: at the first site only the last
position of the left bond is left, at the last site only the first position of the right bond. -/
def siteShape [Zero G] (sh : Shape G) (L i : Nat) : Shape G :=
  if i = 0 then pinned sh [((sh.map dimSize).getD 0 0 : Int) - 1, -1, -1, -1]
  else if i = L - 1 then pinned sh [-1, -1, 0, -1]
  else sh

end QuantiT.Spec
