import Verif.Base
import Mathlib.Data.List.Basic
/-
What a DMRG sweep should do, without any cached environment.

`S` is the type of site tensors, `E` of environments, `En` of energies.  A local update at position `o` gets the
environments of everything left of `o` and right of `o + 1` and the two sites, and returns an energy and the two new
sites; the flag says whether the sweep is moving right.
-/
namespace QuantiT
namespace Spec
variable {S E En : Type}

/-- The numerical ingredients of DMRG. -/
structure Dmrg (S E En : Type) where
  /-- local update: moving right?, position, left environment, right environment, two sites -/
  upd : Bool → Nat → E → E → S → S → Res (En × S × S)
  /-- environment of one more site on the left, and on the right; the site number selects the Hamiltonian tensor -/
  lenv : Nat → S → E → E
  renv : Nat → S → E → E
  /-- environments of nothing -/
  edgeL : E
  edgeR : E

/-- Contraction of the current tensors of the sites `0 … o - 1`. -/
def Dmrg.left (d : Dmrg S E En) (sites : List S) (o : Nat) : E :=
  (sites.zipIdx.take o).foldl (fun acc p => d.lenv p.2 p.1 acc) d.edgeL

/-- Contraction of the current tensors of the sites `o, o + 1, …`. -/
def Dmrg.right (d : Dmrg S E En) (sites : List S) (o : Nat) : E :=
  (sites.zipIdx.drop o).foldr (fun p acc => d.renv p.2 p.1 acc) d.edgeR

/-- A local update at position `o` with environments computed from the current tensors. -/
def Dmrg.fresh (d : Dmrg S E En) (o : Nat) (fwd : Bool) (sites : List S) : Res (En × List S) :=
  match sites[o]?, sites[o + 1]? with
  | some a, some b =>
    (d.upd fwd o (d.left sites o) (d.right sites (o + 2)) a b).map
      fun r => (r.1, (sites.set o r.2.1).set (o + 1) r.2.2)
  | _, _ => Res.ub

/-- Local updates one after the other; the energy kept is the last one. -/
def Dmrg.run (d : Dmrg S E En) : List (Nat × Bool) → Option En × List S → Res (Option En × List S)
  | [], x => .ok x
  | (o, fwd) :: rest, x =>
    match d.fresh o fwd x.2 with
    | .error f => .error f
    | .ok r => d.run rest (some r.1, r.2)

/-- The positions visited by one sweep that starts at `p` in a chain of `len` sites, and whether each update is made
moving right: down to the left end, up to the right end, back down to `p`.  A chain of two sites has one pair,
updated twice. -/
def tour (len p : Nat) : List (Nat × Bool) :=
  if len = 2 then [(0, false), (0, false)]
  else (List.range p).map (fun j => (p - j, false)) ++ (List.range (len - 2)).map (fun j => (j, true))
    ++ (List.range (len - 2 - p)).map (fun j => (len - 2 - j, false))

/-- The pair of sites where the sweeps start, for a center at `p`. -/
def startPair (len p : Nat) : Nat := if p = len - 1 then p - 1 else p

/-- What a logger hears. -/
inductive Event (S En : Type) where
  | init
  | iteration (n : Nat) (e : En) (sites : List S)
  | done (n : Nat) (e : En) (sites : List S)

end Spec
end QuantiT

namespace QuantiT
namespace Spec
variable {S E En : Type}

/-- `h` lists energy and tensors before the first sweep and after each sweep of a DMRG run limited to `max` sweeps that
start and end at the pair `q`.  `converged` says whether the run ended because the energy change was small. -/
structure History (d : Dmrg S E En) (above : En → En → Bool) (len q max : Nat) (e0 : En) (sites : List S)
    (h : List (En × List S)) (converged : Bool) : Prop where
  start : h[0]? = some (e0, sites)
  bound : h.length ≤ max + 1
  /-- every sweep is the tour from `q` with fresh environments -/
  sweep : ∀ k x y, h[k]? = some x → h[k + 1]? = some y → d.run (tour len q) (none, x.2) = .ok (some y.1, y.2)
  /-- a further sweep is made only if the energy change was above the criterion -/
  goesOn : ∀ k x y z, h[k]? = some x → h[k + 1]? = some y → h[k + 2]? = some z → above y.1 x.1 = true
  /-- convergence: the last change was not above the criterion -/
  stops : converged = true → ∃ k x y, h.length = k + 2 ∧ h[k]? = some x ∧ h[k + 1]? = some y ∧ above y.1 x.1 = false
  /-- no convergence: all the sweeps allowed were made -/
  limit : converged = false → h.length = max + 1 ∧
    ∀ k x y, h[k]? = some x → h[k + 1]? = some y → above y.1 x.1 = true

/-- Sites before `oc` satisfy `Lo` and sites after it satisfy `Ro`. -/
def Canon (Lo Ro : S → Prop) (sites : List S) (oc : Nat) : Prop :=
  (∀ i A, sites[i]? = some A → i < oc → Lo A) ∧ (∀ i A, sites[i]? = some A → oc < i → Ro A)

end Spec
end QuantiT
