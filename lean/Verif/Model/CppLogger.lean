import Verif.Model.PyLogger
/-
Loggers derived in C++ from `dmrg_default_logger`, include/dmrg_logger.h:27-111.
-/
namespace QuantiT
namespace PY
open Spec
variable {S En : Type}

/-- A virtual call of a logger whose C++ class overrides the methods `defines`: the override runs, which here only records its call, or else the
method of the base class, include/dmrg_logger.h:36-110.  `it_log_all`, `end_log_all`, `log_all`, `log_energy` and `log_bond_dims` each have an overload
for `torch::Tensor` and `MPS` and one for `btensor` and `bMPS`; `defines` speaks of those that the run calls. -/
def cppCall (defines : LogName → Bool) : Nat → LogCall S En → Res (List (LogCall S En))
  | 0, _ => Res.ub
  | depth + 1, c =>
    if defines c.name then .ok [c]
    else ((baseBody c).mapM (cppCall defines depth)).map List.flatten

end PY
end QuantiT
