import Verif.Model.DenseTools
/-
The contractions of dense torch tensors that write into a tensor of the caller (sources/tensorgdot.cpp), with the
memory of that tensor: which cells it occupies is given by sizes, strides and an offset.
-/
namespace QuantiT
namespace Dense
open Spec BT
variable {R : Type}

/-- A torch tensor in memory: sizes, strides (torch allows no negative ones) and the offset of its first element. -/
structure View where
  sizes : List Nat
  strides : List Nat
  offset : Nat

/-- The cell of the element at a multi-index. -/
def View.addr (v : View) (o : List Nat) : Nat := v.offset + (List.zipWith (· * ·) o v.strides).sum

/-- The value of a tensor for a given content of the memory. -/
def View.read (v : View) (m : Nat → R) : Blk R := ⟨v.sizes, fun o => m (v.addr o)⟩

/-- Assignment of all elements of a tensor. -/
def View.write (v : View) (val : List Nat → R) (m : Nat → R) : Nat → R :=
  (allIdx v.sizes).foldl (fun m o => fun x => if x = v.addr o then val o else m x) m

/-- `rout = output.reshape({n1, n2}); rout.addmm_(t1, t2, beta, alpha)` and `at::addmm_out(rout, add, t1, t2, ...)`, with
`val` the value of each element of the resulting matrix. `viewOf` is the part of torch's `reshape` that returns a
view of the same memory, `none` when torch makes a copy instead: then the copy is written and dropped.
(sources/tensorgdot.cpp:115-116, 148-149, 189-190) -/
def storeReshaped (viewOf : View → List Nat → Option View) (out : View) (n1 n2 : Nat) (val : List Nat → R)
    (m : Nat → R) : Res (Nat → R) :=
  if ¬ n1 * n2 = out.sizes.prod then Res.throw .runtimeError
  else match viewOf out [n1, n2] with
    | some w => .ok (w.write val m)
    | none => .ok m

/-- `tensorgdot_(output, input1, input2, dims1, dims2, beta, alpha)`. The inputs are values: they share no memory with
the output. (sources/tensorgdot.cpp:136-151) -/
def tensorgdotInPlace [Semiring R] (viewOf : View → List Nat → Option View) (out : View) (a b : Blk R) (da db : List Nat)
    (beta alpha : R) (m : Nat → R) : Res (Nat → R) := do
  let (t1, t2, p1, p2, n1, nc, n2) ← computeShape (out.read m) a b da db
  let t1 ← permBlk p1 t1
  let t1 ← reshapeBlk [n1, nc] t1
  let t2 ← permBlk p2 t2
  let t2 ← reshapeBlk [nc, n2] t2
  let c ← reshapeBlk [n1, n2] (out.read m)
  let r ← addmmScaled c t1 t2 beta alpha
  storeReshaped viewOf out n1 n2 r.f m

/-- `tensorgdot_out(output, add, input1, input2, dims1, dims2, beta, alpha)`. The sizes of `output` are not compared
with those of the result. (sources/tensorgdot.cpp:102-117) -/
def tensorgdotOut [Semiring R] (viewOf : View → List Nat → Option View) (out : View) (add a b : Blk R) (da db : List Nat)
    (beta alpha : R) (m : Nat → R) : Res (Nat → R) := do
  let (t1, t2, p1, p2, n1, nc, n2) ← computeShape add a b da db
  let t1 ← permBlk p1 t1
  let t1 ← reshapeBlk [n1, nc] t1
  let t2 ← permBlk p2 t2
  let t2 ← reshapeBlk [nc, n2] t2
  let c ← reshapeBlk [n1, n2] add
  let r ← addmmScaled c t1 t2 beta alpha
  storeReshaped viewOf out n1 n2 r.f m

/-- `tensorgdot_(output, input1, input2, dims, beta, alpha)`: the last `dims` dimensions of the first tensor with the
first `dims` of the second, without permutation. More dimensions than a tensor has: iterators before the beginning or
beyond the end, undefined behaviour. The products of sizes are held in `int`; larger ones are outside the model, which
reports them as undefined. (sources/tensorgdot.cpp:153-193) -/
def tensorgdotInPlaceN [Semiring R] (viewOf : View → List Nat → Option View) (out : View) (a b : Blk R) (dims : Nat)
    (beta alpha : R) (m : Nat → R) : Res (Nat → R) := do
  if a.dims.length < dims ∨ b.dims.length < dims then Res.ub
  else
    let s1 := a.dims.take (a.dims.length - dims)
    let s2 := b.dims.drop dims
    if ¬ (s1.prod < 2 ^ 31 ∧ s2.prod < 2 ^ 31) then Res.ub
    else if ¬ s1 ++ s2 = out.sizes then Res.throw .runtimeError
    else
      let c1 := a.dims.drop (a.dims.length - dims)
      if ¬ c1 = b.dims.take dims then Res.throw .runtimeError
      else if ¬ c1.prod < 2 ^ 31 then Res.ub
      else
        let t1 ← reshapeBlk [s1.prod, c1.prod] a
        let t2 ← reshapeBlk [c1.prod, s2.prod] b
        let c ← reshapeBlk [s1.prod, s2.prod] (out.read m)
        let r ← addmmScaled c t1 t2 beta alpha
        storeReshaped viewOf out s1.prod s2.prod r.f m

end Dense
end QuantiT
