import Verif.Base
import Verif.Spec.PyLogger
import Verif.Model.Logger
/-
Model of loggers derived in Python from `quantit.algorithm.dmrg_logger`, python_binding/algorithm.cpp:64-180.  Such an object is a
`py_default_logger` in C++: each virtual method looks for a method of the Python class and runs it, or else runs the method of the C++ base class.
A method of the Python class is user code; here it does nothing but record its call (in particular it does not call `super()`).

Virtual methods call one another, so the model gives them a finite stack: `depth` is the number of nested calls there is room for.  A call with
no room left is undefined behaviour (the process is killed).
-/
namespace QuantiT
namespace PY
open Spec
variable {S En : Type}

/-- The bodies of the methods of `dmrg_default_logger`: include/dmrg_logger.h:36 (`init`), 45 and 53 (`it_log_all`), 61 and 69 (`end_log_all`), 78-96
(`log_all`) and 106-110 (`log_step`, `log_energy`, `log_bond_dims`).  The virtual calls each makes, in order. -/
def baseBody : LogCall S En → List (LogCall S En)
  | .step _ => []
  | .energy _ => []
  | .bonds _ => []
  | .init => []
  | .itAll n e s => [.logAll n e s]
  | .endAll n e s => [.logAll n e s]
  | .logAll n e s => [.step n, .energy e, .bonds s]

/-- The method each method of `py_default_logger` looks for in Python, and calls in the base class if there is none there,
python_binding/algorithm.cpp:76-122: its own, but for `log_all` (113-122), which names `end_log_all`. -/
def trampoline : LogCall S En → LogCall S En
  | .logAll n e s => .endAll n e s
  | c => c

/-- A virtual call of a logger whose Python class defines the methods `defines`, python_binding/algorithm.cpp:76-122 with `PYBIND11_OVERRIDE` of
pybind11: the calls of Python methods it leads to. -/
def virtualCall (defines : LogName → Bool) : Nat → LogCall S En → Res (List (LogCall S En))
  | 0, _ => Res.ub
  | depth + 1, c =>
    if defines (trampoline c).name then .ok [trampoline c]
    else ((baseBody (trampoline c)).mapM (virtualCall defines depth)).map List.flatten

/-- A virtual call of an object that is a `dmrg_logger` itself (python_binding/algorithm.cpp:128-132, or the default argument of `dmrg`, 21, 47-62):
there is no `py_default_logger` and no method in Python. -/
def plainCall : Nat → LogCall S En → Res (List (LogCall S En))
  | 0, _ => Res.ub
  | depth + 1, c => ((baseBody c).mapM (plainCall depth)).map List.flatten

/-- The method `dmrg` calls for an event, sources/dmrg.cpp:239, 245, 268 and 301, 307, 331. -/
def called : Event S En → LogCall S En
  | .init => .init
  | .iteration n e s => .itAll n e s
  | .done n e s => .endAll n e s

/-- A logger that records the calls of its Python methods hears an event. -/
def hear (call : LogCall S En → Res (List (LogCall S En))) (told : List (LogCall S En)) (ev : Event S En) : Res (List (LogCall S En)) := do
  let cs ← call (called ev)
  .ok (told ++ cs)

/-- What a run of `dmrg` makes of a logger derived in Python: the calls of its methods, from the list of what `dmrg` tells. -/
def told (defines : LogName → Bool) (depth : Nat) (log : List (Event S En)) : Res (List (LogCall S En)) :=
  DM.hearAll (hear (virtualCall defines depth)) [] log

end PY
end QuantiT
