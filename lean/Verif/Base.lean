/-
Outcomes of a C++ call, shared by all model files.
-/
namespace QuantiT

/-- The exception classes thrown by QuantiT. -/
inductive Exn where
  | invalidArgument | outOfRange | badCast | logicError | runtimeError
  deriving DecidableEq, Repr

/-- How a C++ call can fail to return: a thrown exception, or undefined behaviour. -/
inductive Fault where
  | throw (e : Exn)
  | ub
  deriving DecidableEq, Repr

deriving instance DecidableEq for Except

/-- Result of a modelled C++ call. -/
abbrev Res (α : Type _) := Except Fault α

namespace Res
/-- A thrown exception. -/
def throw {α} (e : Exn) : Res α := .error (.throw e)
/-- Undefined behaviour. -/
def ub {α} : Res α := .error .ub
end Res

end QuantiT
