import Verif.Spec.Dmrg
/-
What the documentation of `quantit.algorithm.dmrg_logger` promises to a class derived from it in Python.
-/
namespace QuantiT
namespace Spec
variable {S En : Type}

/-- The methods of a logger. -/
inductive LogName where
  | log_step | log_energy | log_bond_dims | init | it_log_all | end_log_all | log_all
  deriving DecidableEq

/-- A call of a method of a logger, with its arguments. -/
inductive LogCall (S En : Type) where
  | step (n : Nat)
  | energy (e : En)
  | bonds (sites : List S)
  | init
  | itAll (n : Nat) (e : En) (sites : List S)
  | endAll (n : Nat) (e : En) (sites : List S)
  | logAll (n : Nat) (e : En) (sites : List S)

/-- The method that is called. -/
def LogCall.name : LogCall S En → LogName
  | .step _ => .log_step
  | .energy _ => .log_energy
  | .bonds _ => .log_bond_dims
  | .init => .init
  | .itAll _ _ _ => .it_log_all
  | .endAll _ _ _ => .end_log_all
  | .logAll _ _ _ => .log_all

/-- "default logging action. default implementation calls log_energy, log_bond_dim and log_step": the calls of methods the class defines that
`log_all` leads to, in the order of the code in C++. -/
def documentedAll (defines : LogName → Bool) (n : Nat) (e : En) (sites : List S) : List (LogCall S En) :=
  if defines .log_all then [.logAll n e sites]
  else [LogCall.step n, .energy e, .bonds sites].filter fun c => defines c.name

/-- "logging action to take during DMRG initialization", "logging action take at every dmrg sweep. default implementation calls log_all", "logging
action taken at the end of the dmrg optimization. default implementation calls log_all": the calls of methods the class defines that an event
leads to. -/
def documented (defines : LogName → Bool) : Event S En → List (LogCall S En)
  | .init => if defines .init then [.init] else []
  | .iteration n e sites => if defines .it_log_all then [.itAll n e sites] else documentedAll defines n e sites
  | .done n e sites => if defines .end_log_all then [.endAll n e sites] else documentedAll defines n e sites

end Spec
end QuantiT
