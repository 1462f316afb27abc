import Verif.Model.Models
import Verif.Model.BTensor
import Verif.Spec.Shared
/-
Which tensors made by the library share memory: the sites of the dense Hamiltonians (sources/models.cpp:60-62 and
143-145) and the blocks of a tensor made from a dense one (sources/btensor.cpp:2506-2529).

References carry the position of every element; strides, and whether torch reuses the memory of a tensor nobody holds any
more, are not modelled.
-/
namespace QuantiT
namespace SH
open Spec BT
variable {G R : Type}

/-- `T.index` with `Slice(start, stop)` on dimension `dim` and full slices elsewhere, as a reference: no element is
copied.  The slices of models.cpp:61-62 and 144-145. -/
def narrowRef (dim start stop : Nat) (v : TRef) : TRef :=
  ⟨v.buf, v.dims.set dim (stop - start), fun o => v.pos (o.set dim (o.getD dim 0 + start))⟩

/-- `MPO out(lenght, local_tens)` followed by the two edge slices, models.cpp:60-62 and 143-145, on references: the vector
is filled with copies of the handle `local_tens`. -/
def edgesRef (len : Nat) (W : TRef) (rows : Nat) : Res (List TRef) := do
  let _ ← MP.mkMpoFill W.dims
  if len = 0 then Res.ub
  else
    let out := List.replicate len W
    let out := out.modify 0 (narrowRef 0 (rows - 1) rows)
    .ok (out.modify (len - 1) (narrowRef 2 0 1))

/-- The buffer of a tensor just computed: buffer `b` of the memory holds its elements. -/
def store (m : Memory R) (b : Nat) (T : Blk R) : Memory R := fun b' p => if b' = b then T.f p else m b' p

/-- `Heisenberg(J, lenght)`, models.cpp:38-68: the memory after it, where `b` is the buffer of `local_tens`, and the
tensors. -/
def heisenbergRef [Field R] (m : Memory R) (b : Nat) (J : R) (len : Nat) : Res (Memory R × List TRef) := do
  let W := HM.heisenbergTensor (-J / 4)
  let out ← edgesRef len ⟨b, W.dims, id⟩ 5
  .ok (store m b W, out)

/-- `Hubbard(U, mu, lenght)`, models.cpp:118-147. -/
def hubbardRef [Ring R] (m : Memory R) (b : Nat) (U mu : R) (len : Nat) : Res (Memory R × List TRef) := do
  let W := HM.hubbardTensor U mu
  let out ← edgesRef len ⟨b, W.dims, id⟩ 6
  .ok (store m b W, out)

/-- `values.index(slices)` as a reference, btensor.cpp:2518. -/
def sliceRef (v : TRef) (sl : List (Nat × Nat)) : TRef :=
  ⟨v.buf, List.zipWith (fun n s => min s.2 n - min s.1 n) v.dims sl,
   fun o => v.pos (List.zipWith (fun x s => s.1 + x) o sl)⟩

/-- The blocks `from_basic_impl` puts in the tensor, btensor.cpp:2506-2529: `out.block(index) = block` stores the handle
`values.index(S)` itself.  Which blocks are stored depends on the values at the time of the call, as in `fromBasic`. -/
def fromBasicRef [AddCommMonoid G] [DecidableEq G] [Zero R] (sig : Blk R → Bool) (m : Memory R) (values : TRef) (fuel : Nat)
    (t : BT G R) : Option (Res (List (List Nat × TRef))) :=
  match fromBasic sig (read m values) fuel t with
  | none => none
  | some (.error f) => some (.error f)
  | some (.ok t') => some (.ok (t'.blocks.map fun kb =>
      (kb.1, match fullSlice t.shape kb.1 with
        | .ok sl => sliceRef values sl
        | .error _ => values)))

/-- The value of a block tensor whose blocks are references. -/
def readAll (m : Memory R) (bl : List (List Nat × TRef)) : List (List Nat × Blk R) := bl.map fun kv => (kv.1, read m kv.2)

end SH
end QuantiT
