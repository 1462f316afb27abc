import Verif.Model.BTensorOps
import Verif.Spec.PyChains
/-
Methods of block tensors in Python that work in place, and chains of them, python_binding/quantt.cpp:165, 180-189, 437-538, 654-660.

A tensor is given by its sections, its rule, and for every element of its blocks the place in memory where its value is: copying a `btensor` copies the
handles of its blocks (the copy constructor, include/blockTensor/btensor.h), and permuting one makes views.  No two elements of a tensor have the same
place.
-/
namespace QuantiT
namespace PY
open Spec BT
variable {G R : Type}

/-- The memory, and the tensors that the interpreter holds, by their identity. -/
structure Session (G R : Type) where
  mem : Nat → R
  objs : List (BT G Nat)

/-- The places of the elements of a tensor. -/
def places (t : BT G Nat) : List Nat := t.blocks.flatMap fun kb => (allIdx kb.2.dims).map kb.2.f

/-- What the method of C++ does to the memory and to the tensor: sources/btensor.cpp:895-899, 1522-1539, 1610-1621 (the blocks are changed in place);
1803-1808 and `transpose_` (the tensor is exchanged with the one whose blocks are views); 2180-2185; include/blockTensor/btensor.h:502. -/
def runMethod [AddCommGroup G] [DecidableEq G] (f : InPlace G R) (mem : Nat → R) (t : BT G Nat) : Res ((Nat → R) × BT G Nat) :=
  match f with
  | .each g => .ok (fun p => if p ∈ places t then g (mem p) else mem p, t)
  | .permute p => (permute t p).map (mem, ·)
  | .transpose i j => (transpose t i j).map (mem, ·)
  | .shift q dim => (cvalShift t q dim).map (mem, ·)
  | .t => (transpose t ((t.shape.length : Int) - 1) ((t.shape.length : Int) - 2)).map (mem, ·)

/-- `obj.method(...)` in Python: the session after it and the object it returns.  All the methods are registered as lambdas that return a `btensor` by
value, so that the object returned is a new one with a copy, but for `t_` (165), a member function returning a reference, for which pybind11 finds
the object there is already. -/
def callMethod [AddCommGroup G] [DecidableEq G] (s : Session G R) (i : Nat) (f : InPlace G R) : Res (Session G R × Nat) :=
  match s.objs[i]? with
  | none => Res.ub
  | some x =>
    match runMethod f s.mem x with
    | .error e => .error e
    | .ok (mem, x') =>
      match f with
      | .t => .ok (⟨mem, s.objs.set i x'⟩, i)
      | _ => .ok (⟨mem, s.objs.set i x' ++ [x']⟩, s.objs.length)

/-- `obj.f(...).g(...)...`: every method is called on the object that the one before returned. -/
def chain [AddCommGroup G] [DecidableEq G] : List (InPlace G R) → Session G R → Nat → Res (Session G R × Nat)
  | [], s, i => .ok (s, i)
  | f :: fs, s, i => do
    let r ← callMethod s i f
    chain fs r.1 r.2

/-- `obj.f(...)`, `obj.g(...)`, ... as separate statements. -/
def statements [AddCommGroup G] [DecidableEq G] : List (InPlace G R) → Session G R → Nat → Res (Session G R)
  | [], s, _ => .ok s
  | f :: fs, s, i => do
    let r ← callMethod s i f
    statements fs r.1 i

end PY
end QuantiT
