import Verif.Model.Types
/-
Conversions of element types, and the object that restores them after a DMRG run.
-/
namespace QuantiT
namespace TY
open BT
variable {G : Type}

/-- `to(options)`, include/blockTensor/btensor.h:739-748; `o` is the type of the options, if they have one.  The overloads at 749-792 pass
the type of their arguments.  Each block is converted, or left as it is without a type; the tensor declares the type of its first block,
and without blocks that of `torch::empty({}, options)`, which is the default type if the options have none.  Device, layout and the request
for gradients are left out: `torch::Tensor::to` does not look at the last. -/
noncomputable def toT (dflt : Bool) (o : Option DT) (x : TT G) : TT G where
  t := match o with
    | none => x.t
    | some a => mapBlocks (cast a) x.t
  opt := match x.t.blocks with
    | [] => o.getD (.real dflt)
    | b :: _ => o.getD (x.ty b.1)
  ty := fun k => o.getD (x.ty k)

/-- `to(options)` and `to_(options)` of a chain, include/MPT.h:202-217, 258-268: tensor by tensor; the center stays. -/
noncomputable def chainTo (dflt : Bool) (o : Option DT) (l : List (TT G)) : List (TT G) := l.map (toT dflt o)

/-- `dmrg(hamiltonian, state, options, logger)`, sources/dmrg.cpp:92-109, as far as the types go: `dmrg_gradient_guard` (68-90) notes the options of
the first tensor of either chain, converts both to options without a type, and its destructor converts both to what it noted, also
when `run` (environments, two-site Hamiltonian and sweeps, 97-99) throws.  `run` has the Hamiltonian as a constant and changes the state.  The
result is what the call returns or throws, and the two chains after it. -/
noncomputable def guarded {A : Type} (dflt : Bool) (run : List (TT G) → List (TT G) → Res A × List (TT G)) :
    List (TT G) → List (TT G) → Option (Res A × List (TT G) × List (TT G))
  | h :: hs, s :: ss =>
    let ham := chainTo dflt none (h :: hs)
    let r := run ham (chainTo dflt none (s :: ss))
    some (r.1, chainTo dflt (some h.opt) ham, chainTo dflt (some s.opt) r.2)
  | _, _ => none -- undefined: the first tensor of an empty chain

/-- `t.dtype = a` in Python, python_binding/quantt.cpp:136-138: the converted tensor is made and thrown away. -/
noncomputable def setDtypePy (dflt : Bool) (x : TT G) (a : DT) : TT G :=
  let _ := toT dflt (some a) x
  x

end TY
end QuantiT
