import Verif.Model.Elementwise
import Verif.Model.Compare
import Verif.Spec.Operators
/-
The binary operators between block tensors and numbers, in C++ (include/blockTensor/btensor.h:1380-1437) and in Python
(python_binding/quantt.cpp:148-161 and 299-329, python_binding/utilities.h:157-195).

Tensors have one type of entries: truth values are the numbers 0 and 1 and conversions of the type are not modelled.
-/
namespace QuantiT
namespace PY
open Spec
variable {G R : Type}

/-- A value in a Python program. -/
inductive Val (G R : Type) where
  | tensor (t : BT G R)
  /-- a `bool`, `int`, `float` or `complex` -/
  | number (x : R)
  /-- an object of a class that knows nothing of tensors, `None` for example -/
  | other

/-- What an expression in Python raises. -/
inductive Raised where
  | typeError
  | runtimeError
  /-- the exception pybind11 makes of a failure of the C++ call -/
  | cpp (f : Fault)
  deriving DecidableEq

section
variable [AddCommMonoid G] [DecidableEq G] [Field R] [LinearOrder R]

/-- `A op B` of two tensors in C++, btensor.h:1380-1383, 1386, 1419, 1422, 1425, 1428, 1431, 1434.  `A - B` is `A.sub(B)`, which adds `-1` times
`B`. -/
def cppTensors : BinOp → BT G R → BT G R → Res (BT G R)
  | .add, a, b => BT.add a b 1
  | .sub, a, b => BT.add a b (-1)
  | .mul, a, b => BT.mul a b
  | .div, a, b => BT.divT a b
  | .cmp c, a, b => BT.cmpT c a b

/-- `A op x` of a tensor and a number in C++, btensor.h:1384, 1387, 1418 to 1433: there is no sum and no difference. -/
def cppRight : BinOp → BT G R → R → Option (Res (BT G R))
  | .add, _, _ => none
  | .sub, _, _ => none
  | .mul, a, x => some (.ok (BT.scale x a))
  | .div, a, x => some (.ok (BT.divNum a x))
  | .cmp c, a, x => some (.ok (BT.cmpNum c a x))

/-- `x op A` of a number and a tensor in C++, btensor.h:1385, 1388, and 1406-1409, 1413, 1416 with 1420 to 1435. -/
def cppLeft : BinOp → R → BT G R → Option (Res (BT G R))
  | .add, _, _ => none
  | .sub, _, _ => none
  | .mul, x, a => some (.ok (BT.scale x a))
  | .div, x, a => some (BT.scalarDiv x a)
  | .cmp .greater, x, a => some (.ok (BT.lessNum a x))
  | .cmp .less, x, a => some (.ok (BT.greaterNum a x))
  | .cmp .le, x, a => some (.ok (BT.geNum a x))
  | .cmp .ge, x, a => some (.ok (BT.leNum a x))
  | .cmp .eq, x, a => some (.ok (BT.eqNum a x))
  | .cmp .ne, x, a => some (.ok (BT.neNum a x))

/-- A C++ function registered as a method: of two tensors, of a tensor and a number, of a number and a tensor. -/
inductive Overload (G R : Type) where
  | tt (f : BT G R → BT G R → Res (BT G R))
  | tn (f : BT G R → R → Res (BT G R))
  | nt (f : R → BT G R → Res (BT G R))

/-- The outcome of a C++ function, in Python. -/
def raise (r : Res (BT G R)) : Except Raised (BT G R) := r.mapError Raised.cpp

/-- One overload called with `self` and an argument.  `none`: the arguments do not fit.  For a number the parameter is any Python object and
`Cast_Scalars`, utilities.h:182-194, throws for what is not a number. -/
def Overload.call : Overload G R → Val G R → Val G R → Option (Except Raised (BT G R))
  | .tt f, .tensor a, .tensor b => some (raise (f a b))
  | .tn f, .tensor a, .number x => some (raise (f a x))
  | .tn _, .tensor _, _ => some (.error .runtimeError)
  | .nt f, .number x, .tensor b => some (raise (f x b))
  | .nt _, _, .tensor _ => some (.error .runtimeError)
  | _, _, _ => none

/-- The methods of the class `btensor` for binary operators, in the order they are registered: quantt.cpp:148-151, 158-161, 301-329. -/
def methods : String → List (Overload G R)
  | "__add__" => [.tt fun a b => BT.add a b 1]
  | "__sub__" => [.tt fun a b => BT.add a b (-1)]
  | "__truediv__" => [.tt BT.divT]
  | "__mul__" => [.tt BT.mul, .tn fun a x => .ok (BT.scale x a), .nt fun x a => .ok (BT.scale x a)]
  | "__div__" => [.tn fun a x => .ok (BT.divNum a x), .nt BT.scalarDiv]
  | "__gt__" => [.tt BT.greaterT, .tn fun a x => .ok (BT.greaterNum a x)]
  | "__lt__" => [.tt BT.lessT, .tn fun a x => .ok (BT.lessNum a x)]
  | "__ge__" => [.tt BT.geT, .tn fun a x => .ok (BT.geNum a x)]
  | "__le__" => [.tt BT.leT, .tn fun a x => .ok (BT.leNum a x)]
  | "__eq__" => [.tt BT.eqT, .tn fun a x => .ok (BT.eqNum a x)]
  | "__ne__" => [.tt BT.neT, .tn fun a x => .ok (BT.neNum a x)]
  | _ => []

/-- A method called by the interpreter with an operand: the first overload that fits; `none` if there is no such method or if it returns
`NotImplemented`, as pybind11 does when no overload fits and the methods of numbers do for tensors. -/
def method (name : String) : Val G R → Val G R → Option (Except Raised (BT G R))
  | .tensor a, v => (methods name).findSome? fun o => o.call (.tensor a) v
  | _, _ => none

end

/-- The methods that the interpreter calls for an operator: that of the left operand and the reflected one of the right operand (The Python Language
Reference, 3.3.1 and 3.3.8). -/
def names : BinOp → String × String
  | .add => ("__add__", "__radd__")
  | .sub => ("__sub__", "__rsub__")
  | .mul => ("__mul__", "__rmul__")
  | .div => ("__truediv__", "__rtruediv__")
  | .cmp .greater => ("__gt__", "__lt__")
  | .cmp .less => ("__lt__", "__gt__")
  | .cmp .ge => ("__ge__", "__le__")
  | .cmp .le => ("__le__", "__ge__")
  | .cmp .eq => ("__eq__", "__eq__")
  | .cmp .ne => ("__ne__", "__ne__")

/-- `l op r` in Python, of operands one of which at least is a tensor: the method of the left operand, then the reflected method of the right
operand, then TypeError.  (Two operands of one class: the reflected method is not tried for arithmetic; a tensor never gets there.) -/
def python [AddCommMonoid G] [DecidableEq G] [Field R] [LinearOrder R] (op : BinOp) (l r : Val G R) : Except Raised (BT G R) :=
  match method (names op).1 l r with
  | some x => x
  | none =>
    match method (names op).2 r l with
    | some x => x
    | none => .error .typeError

end PY
end QuantiT
