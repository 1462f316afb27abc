import Verif.Base
import Verif.Spec.Python
import Verif.Model.BTensorOps
import Verif.Model.Tensordot
import Verif.Model.Mps
/-
The Python bindings with logic of their own: the sequence interface of chains, python_binding/networks.cpp:15-180, and blocks and
methods of block tensors, python_binding/quantt.cpp.  The conversions of arguments are pybind11's: an argument that does not fit its
C++ type raises TypeError before the code here runs.
-/
namespace QuantiT
namespace PY
open Spec
variable {T G R : Type}

/-- Conversion to `size_t`. -/
def toSize (x : Int) : Nat := (x % 2 ^ 64).toNat

/-- Conversion of a `size_t` to `int`: its value modulo 2³², as a signed number. -/
def toInt (x : Nat) : Int := Int.bmod x (2 ^ 32)

/-- `i = (i < 0) * self.size() + i; self.at(i)`, networks.cpp:32-47, 77-84: the sum is a `size_t`, stored in an `int`, and
converted to `size_t` again by `at`. -/
def position (n : Nat) (i : Int) : Nat := toSize (toInt (toSize ((if i < 0 then (n : Int) else 0) + i)))

/-- The loop of `__getitem__` for slices, networks.cpp:56-60: `start` and `step` are `size_t` and `s[start]` is unchecked. -/
def sliceLoop (l : List T) (step : Nat) : Nat → Nat → Res (List T)
  | 0, _ => .ok []
  | n + 1, start =>
    match l[start]? with
    | none => Res.ub
    | some x => do
      let xs ← sliceLoop l step n ((start + step) % 2 ^ 64)
      .ok (x :: xs)

/-- The loop of `__setitem__` for slices, networks.cpp:71-75. -/
def setLoop (step : Nat) : List T → Nat → List T → Res (List T)
  | [], _, l => .ok l
  | v :: vs, start, l =>
    if start < l.length then setLoop step vs ((start + step) % 2 ^ 64) (l.set start v) else Res.ub

/-- `slice.compute(size, &start, &stop, &step, &slicelength)`, pybind11: fails for a zero step, otherwise gives the first position,
the step and the number of positions as `size_t`, after the documentation of `PySlice_GetIndicesEx`. -/
def compute (s : PySlice) (n : Nat) : Res (Nat × Nat × Nat) :=
  if s.step = 0 then Res.throw .runtimeError else .ok (toSize (s.first n), toSize s.step, (s.positions n).length)

/-- One call from Python: the items returned and the chain afterwards.  networks.cpp:32-47 (`at`, `__getitem__`),
networks.cpp:49-76 (slices), networks.cpp:77-84 (`__setitem__`), networks.cpp:109 (`clear`), networks.cpp:113-119 (`insert`),
networks.cpp:124-143 (`erase`), networks.cpp:145-154 (`append`, `pop`). -/
def step : PyOp T → List T → Res (List T × List T)
  | .get i, l =>
    match l[position l.length i]? with
    | some x => .ok ([x], l)
    | none => Res.throw .outOfRange
  | .getSlice s, l => do
    let (start, st, n) ← compute s l.length
    let xs ← sliceLoop l st n start
    .ok (xs, l)
  | .set i v, l => if position l.length i < l.length then .ok ([], l.set (position l.length i) v) else Res.throw .outOfRange
  | .setSlice s vs, l => do
    let (start, st, n) ← compute s l.length
    if n ≠ vs.length then Res.throw .runtimeError
    else
      let l' ← setLoop st vs start l
      .ok ([], l')
  | .insert p v, l => if p > l.length then Res.throw .invalidArgument else .ok ([], l.insertIdx p v)
  | .erase p, l =>
    if p > l.length then Res.throw .invalidArgument
    else if p = l.length then Res.ub
    else .ok ([], l.eraseIdx p)
  | .eraseRange a b, l =>
    if a < b then Res.throw .invalidArgument
    else if a > l.length then Res.throw .invalidArgument
    else if b > l.length then Res.throw .invalidArgument
    else if b < a then Res.ub
    else .ok ([], l)
  | .append v, l => .ok ([], l ++ [v])
  | .pop, l => if l.length = 0 then Res.ub else .ok ([], l.dropLast)
  | .popAt p, l =>
    match l[p]? with
    | some x => .ok ([x], l.eraseIdx p)
    | none => Res.ub
  | .clear, _ => .ok ([], [])

/-- A sequence of calls; an exception ends it. -/
def run : List (PyOp T) → List T → Res (List (List T) × List T)
  | [], l => .ok ([], l)
  | o :: os, l => do
    let (r, l') ← step o l
    let (rs, l'') ← run os l'
    .ok (r :: rs, l'')

/-- `mps[s]` of an MPS, networks.cpp:49-62: `new S(slicelength)` is the constructor of MPT.h:317, which sets the center to zero, and its
elements are then assigned. -/
def mpsSlice (m : MP.MPS R) (s : PySlice) : Res (MP.MPS R) := do
  let (start, st, n) ← compute s m.sites.length
  let xs ← sliceLoop m.sites st n start
  .ok ⟨xs, 0⟩

/-- The comparison of sizes in `__setitem__` of blocks, quantt.cpp:103-111: `val_size[i]` is unchecked, and the sizes after the last
section are not looked at.  `py::value_error` is a `std::runtime_error`. -/
def sizeLoop : List Nat → List Nat → Res Unit
  | [], _ => .ok ()
  | _ :: _, [] => Res.ub
  | s :: ss, v :: vs => if v ≠ s then Res.throw .runtimeError else sizeLoop ss vs

/-- `t.blocks[ind] = val`, quantt.cpp:91-114.  `py::key_error` is a `std::runtime_error`.  The conversion to the options of the tensor
is not modelled. -/
def setBlock [AddCommMonoid G] [DecidableEq G] [Zero R] (t : BT G R) (ind : List Nat) (val : Blk R) : Res (BT G R) :=
  if ind.length ≠ t.shape.length then Res.throw .runtimeError
  else if (List.zip ind (BT.secCounts t.shape)).any (fun p => decide (p.2 ≤ p.1)) then Res.throw .runtimeError
  else do
    let s ← BT.blockSizes t ind
    sizeLoop s val.dims
    BT.blockAssign t ind val

/-- `t.inverse_cvals_()` in Python, quantt.cpp:642-645: calls `inverse_cvals()`.  The tensor afterwards, and what is returned. -/
def inverseCvalsInPlace [AddCommGroup G] (t : BT G R) : BT G R × BT G R := (t, BT.inverseCvals t)

/-- `a.tensordot(b, dims)` with a number, quantt.cpp:588-600: `dim_self` are the last and `dim_other` the first `dims` dimensions.  For
more dimensions than `a` has, `self.dim() - dims` is a negative dimension; `ub` here, and not used. -/
def tensordotNum [AddCommMonoid G] [DecidableEq G] [Semiring R] (fuel : Nat) (a b : BT G R) (dims : Nat) : Option (Res (BT G R)) :=
  if a.shape.length < dims then some Res.ub
  else BT.tensordot fuel a b (List.range' (a.shape.length - dims) dims) (List.range dims)

end PY
end QuantiT
