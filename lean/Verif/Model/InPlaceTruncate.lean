import Verif.Model.BlockTruncate
/-
`truncate` in Python, which stores its result in the tensors it is given, python_binding/linalg.cpp:94-113.
-/
namespace QuantiT
namespace PY
open BT
variable {G α : Type} [Field α] [LinearOrder α]

/-- The tensors in the objects of the interpreter, by their identity. -/
abbrev Objects (G α : Type) := Nat → BT G α

/-- `std::move` of the tensor of an object into a new tensor, include/blockTensor/btensor.h:143-149. -/
def takeFrom (h : Objects G α) (i : Nat) : BT G α × Objects G α := (h i, Function.update h i (movedFrom (h i)))

/-- `linalg.truncate(U, d, V, max, min, tol, pow)`, python_binding/linalg.cpp:96-104, with sources/btensor_linalg.cpp:793-798: the three tensors are moved
into a tuple (the last first, as libstdc++ does), truncated, and the results are moved into the objects.  The objects after the call, and the
exception it raises.  The tolerance and the power are numbers, `pw x` is `x^pow`. -/
def pyTruncate (h : Objects G α) (u d v : Nat) (maxS minS : Nat) (tol : α) (pw : α → α) (eps : α) : Res (Objects G α × Option Exn) :=
  let (tv, h) := takeFrom h v
  let (td, h) := takeFrom h d
  let (tu, h) := takeFrom h u
  match truncateSvd (tu, td, tv) maxS minS tol pw eps with
  | .error .ub => Res.ub
  | .error (.throw x) => .ok (h, some x)
  | .ok (a, b, c) => .ok (Function.update (Function.update (Function.update h u a) d b) v c, none)

/-- `linalg.truncate(e, S, max, min, tol, pow)`, python_binding/linalg.cpp:105-112, with sources/btensor_linalg.cpp:799-803. -/
def pyTruncateEigh (h : Objects G α) (e s : Nat) (maxS minS : Nat) (tol : α) (pw : α → α) (eps : α) : Res (Objects G α × Option Exn) :=
  let (ts, h) := takeFrom h s
  let (te, h) := takeFrom h e
  match truncateEigh (te, ts) maxS minS tol pw eps with
  | .error .ub => Res.ub
  | .error (.throw x) => .ok (h, some x)
  | .ok (a, b) => .ok (Function.update (Function.update h e a) s b, none)

end PY
end QuantiT
