import Verif.Model.Tensordot
/-
Helpers on dense torch tensors: sources/dimension_manip.cpp and sources/tensorgdot.cpp.
-/
namespace QuantiT
namespace Dense
open Spec BT
variable {R : Type}

/-! ### dimension_manip -/

/-- `concat(lists)`: appends every list at the end of `out`. (sources/dimension_manip.cpp:18-32) -/
def concat (ls : List (List Int)) : List Int := ls.foldl (fun out a => out ++ a) []

/-- A product of two `int64_t`: undefined behaviour on overflow. -/
def mul64 (a b : Int) : Res Int :=
  if -(2 ^ 63) ≤ a * b ∧ a * b < 2 ^ 63 then .ok (a * b) else Res.ub

/-- `prod(dims)`. (sources/dimension_manip.cpp:34-42) -/
def prod (dims : List Int) : Res Int := dims.foldlM mul64 1

/-- `IntArrayRef::slice(start, n)`: `n` elements from `start`; throws c10::Error beyond the end. -/
def slice (dims : List Int) (start n : Nat) : Res (List Int) :=
  if start + n ≤ dims.length then .ok ((dims.drop start).take n) else Res.throw .runtimeError

/-- `prod(dims, start, n)`. (sources/dimension_manip.cpp:44-47) -/
def prodSlice (dims : List Int) (start n : Nat) : Res Int := do
  let s ← slice dims start n
  prod s

/-- `reverse(dims)`: a vector of `dims.size()` zeros, then the reversed list is inserted at its beginning.
(sources/dimension_manip.cpp:49-54) -/
def reverse (dims : List Int) : List Int := dims.reverse ++ List.replicate dims.length 0

/-! ### tensorgdot -/

/-- `t.sum(i, true)`: sum along a dimension that is kept with size one. -/
def sumKeep [Semiring R] (i : Nat) (t : Blk R) : Blk R :=
  ⟨t.dims.set i 1, fun o => ((List.range (t.dims.getD i 0)).map fun j => t.f (o.set i j)).sum⟩

/-- One pair of contracted dimensions in `compute_shape`: a dimension of size one is summed away in the other tensor,
otherwise the sizes must agree. State: both tensors and the total contracted size.
(sources/tensorgdot.cpp:43-60; `input.size(d)` throws an IndexError beyond the rank; the code holds each size in an `int`, sizes of 2^31
and more are outside the model) -/
def shapeStep [Semiring R] (a b : Blk R) (st : Blk R × Blk R × Nat) (dd : Nat × Nat) : Res (Blk R × Blk R × Nat) :=
  match a.dims[dd.1]?, b.dims[dd.2]? with
  | some s1, some s2 =>
    if s2 = 1 then .ok (sumKeep dd.1 st.1, st.2.1, st.2.2)
    else if s1 = 1 then .ok (st.1, sumKeep dd.2 st.2.1, st.2.2)
    else if s1 = s2 then .ok (st.1, st.2.1, st.2.2 * s1)
    else Res.throw .runtimeError
  | _, _ => Res.throw .outOfRange

/-- `compute_shape`: both tensors after the summation of broadcast dimensions, both permutations, and the three
matrix sizes. `dim_list_to_bitset` throws on a repeated dimension. Dimension numbers are naturals (torch would
wrap negative ones). (sources/tensorgdot.cpp:34-100) -/
def computeShape [Semiring R] (add a b : Blk R) (da db : List Nat) :
    Res (Blk R × Blk R × List Nat × List Nat × Nat × Nat × Nat) := do
  if ¬ da.length = db.length then Res.throw .runtimeError
  else
    let st ← (da.zip db).foldlM (shapeStep a b) (a, b, 1)
    if ¬ (da.Nodup ∧ db.Nodup) then Res.throw .runtimeError
    else
      let s1 := (outer da a.dims.length).map fun i => st.1.dims.getD i 0
      let s2 := (outer db b.dims.length).map fun i => st.2.1.dims.getD i 0
      if ¬ s1 ++ s2 = add.dims then Res.throw .runtimeError
      else .ok (st.1, st.2.1, outer da a.dims.length ++ da, db ++ outer db b.dims.length, s1.prod, st.2.2, s2.prod)

/-- `at::addmm(c, m1, m2, beta, alpha)` is `beta*c + alpha*(m1.m2)` (torch documentation). -/
def addmmScaled [Semiring R] (c m1 m2 : Blk R) (beta alpha : R) : Res (Blk R) := do
  let p ← mm m1 m2
  if p.dims = c.dims then .ok ⟨c.dims, fun o => beta * c.f o + alpha * p.f o⟩ else Res.throw .runtimeError

/-- `tensorgdot(add, a, b, dims1, dims2, beta, alpha)`. (sources/tensorgdot.cpp:119-134; `tensorgdot_` at 136-151
computes the same and stores it in `add`, `tensorgdot_out` at 102-117 in `output`, provided that
`output.reshape` shares the memory of `output`) -/
def tensorgdot [Semiring R] (add a b : Blk R) (da db : List Nat) (beta alpha : R) : Res (Blk R) := do
  let (t1, t2, p1, p2, n1, nc, n2) ← computeShape add a b da db
  let t1 ← permBlk p1 t1
  let t1 ← reshapeBlk [n1, nc] t1
  let t2 ← permBlk p2 t2
  let t2 ← reshapeBlk [nc, n2] t2
  let c ← reshapeBlk [n1, n2] add
  let r ← addmmScaled c t1 t2 beta alpha
  reshapeBlk add.dims r

end Dense
end QuantiT
