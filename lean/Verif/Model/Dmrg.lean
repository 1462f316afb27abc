import Verif.Model.BTensorOps
import Verif.Model.Truncate
import Verif.Spec.Dmrg
/-
Model of the control flow of dmrg.cpp: environments, sweeps, convergence loop, logging.

Tensors are abstract: the local update (`two_sites_update`, truncated SVD, normalisation), `compute_left_env` and
`compute_right_env` are the functions of a `Spec.Dmrg`; `compute_left_env`, `compute_right_env` and the edge tensors
do not throw.  `size_t` arithmetic wraps where the code could reach it.
-/
namespace QuantiT
namespace DM
open Spec
variable {S E En : Type}

/-- `in_out_state` and `Env`.  `env` is `env_holder_impl::env`: entry `i + 1` is `Env[i]`, dmrg.cpp:33-42. -/
structure St (S E : Type) where
  sites : List S
  oc : Nat
  env : List E

/-- `Env[i]`, dmrg.cpp:40: `env[i + 1]`, unchecked. -/
def rd (env : List E) (i : Int) : Res E := if 0 ≤ i + 1 then BT.orUb env[(i + 1).toNat]? else Res.ub

/-- `Env[i] = e`. -/
def wr (env : List E) (i : Int) (e : E) : Res (List E) :=
  if 0 ≤ i + 1 ∧ (i + 1).toNat < env.length then .ok (env.set (i + 1).toNat e) else Res.ub

/-- One turn of the loop `while (i < state.orthogonality_center)` of `generate_env_impl`, dmrg.cpp:394-399. -/
def genLeft (d : Dmrg S E En) (sites : List S) (env : List E) (i : Nat) : Res (List E) := do
  let s ← BT.orUb sites[i]?
  let e ← rd env ((i : Int) - 1)
  wr env i (d.lenv i s e)

/-- One turn of the loop `while (i > state.orthogonality_center)`, dmrg.cpp:401-406. -/
def genRight (d : Dmrg S E En) (sites : List S) (env : List E) (i : Nat) : Res (List E) := do
  let s ← BT.orUb sites[i]?
  let e ← rd env ((i : Int) + 1)
  wr env i (d.renv i s e)

/-- `generate_env_impl`, dmrg.cpp:370-408.  `len` is `hamiltonian.size()`; a default constructed tensor is `dflt`.
`state.front()` of an empty chain is undefined behaviour. -/
def generateEnv (d : Dmrg S E En) (dflt : E) (len : Nat) (sites : List S) (oc : Nat) : Res (List E) := do
  if sites = [] ∨ len = 0 then Res.ub
  else
    let env ← wr (List.replicate (len + 2) dflt) (-1) d.edgeL
    let env ← wr env len d.edgeR
    let env ← (List.range oc).foldlM (genLeft d sites) env
    ((List.range (len - 1 - oc)).map fun j => len - 1 - j).foldlM (genRight d sites) env

/-- `dmrg_2sites_update::operator()`, dmrg.cpp:163-207.  `n2` is `twosite_hamil.size()`.  `oc += step` wraps. -/
def update (d : Dmrg S E En) (n2 : Nat) (st : St S E) (step : Int) : Res (En × St S E) := do
  let forward : Bool := decide (step = 1)
  let a ← BT.orUb st.sites[st.oc]?
  let b ← BT.orUb st.sites[st.oc + 1]?
  if ¬ st.oc < n2 then Res.ub
  else
    let le ← rd st.env ((st.oc : Int) - 1)
    let re ← rd st.env ((st.oc : Int) + 2)
    let r ← d.upd forward st.oc le re a b
    let sites := (st.sites.set st.oc r.2.1).set (st.oc + 1) r.2.2
    let env ← (if forward then wr st.env st.oc (d.lenv st.oc r.2.1 le)
      else wr st.env ((st.oc : Int) + 1) (d.renv (st.oc + 1) r.2.2 re) : Res (List E))
    .ok (r.1, ⟨sites, LA.toU64 ((st.oc : Int) + step), env⟩)

/-- The loop of `sweep`, dmrg.cpp:133-140: the energy of the last update (none before the first), the direction and
the state. -/
def sweepLoop (d : Dmrg S E En) (n2 rightEdge : Nat) : Nat → Option En → Int → St S E → Res (Option En × Int × St S E)
  | 0, e, step, st => .ok (e, step, st)
  | n + 1, _, step, st => do
    let r ← update d n2 st step
    sweepLoop d n2 rightEdge n (some r.1)
      (step * (1 - 2 * (if r.2.oc = 0 ∨ r.2.oc = rightEdge then 1 else 0))) r.2

/-- Everything `dmrg_impl` leaves behind. -/
structure Out (S E En : Type) where
  energy : En
  st : St S E
  step : Int
  iteration : Nat
  log : List (Event S En)

/-- The loop of `dmrg_impl`, dmrg.cpp:242-260 and 301-319; `rem` is the number of iterations left.  `above new old` is
the comparison of the energy change with `convergence_criterion`.  An unset energy is read as `e0`: it cannot
happen when a sweep makes at least one update. -/
def itLoop (d : Dmrg S E En) (above : En → En → Bool) (n2 rightEdge nstep : Nat) :
    Nat → Nat → En → Int → St S E → List (Event S En) → Res (Out S E En)
  | 0, it, e0, step, st, log => .ok ⟨e0, st, step, it, log⟩
  | rem + 1, it, e0, step, st, log => do
    let r ← sweepLoop d n2 rightEdge nstep none step st
    let e := r.1.getD e0
    let log' := log ++ [.iteration it e r.2.2.sites]
    if above e e0 then itLoop d above n2 rightEdge nstep rem (it + 1) e r.2.1 r.2.2 log'
    else .ok ⟨e, r.2.2, r.2.1, it, log'⟩

/-- `dmrg_impl` called by `dmrg`, dmrg.cpp:88-107, 219-273 (`dense = false`) and 277-334 (`dense = true`).  `len` is
`hamiltonian.size()`.  `moveOc sites from to` stands for `move_oc`.  `iteration` is an `unsigned int` in the code: a
limit of `2^32` or more is not modelled.  The zero norm test of the dense version is `zeroNorm`.  Returns energy,
tensors, `orthogonality_center` and what the logger heard. -/
def dmrg (dense : Bool) (d : Dmrg S E En) (dflt : E) (above : En → En → Bool) (zeroNorm : List S → Bool)
    (moveOc : List S → Nat → Nat → Res (List S × Nat)) (e0 : En) (maxIt len : Nat) (sites : List S) (oc : Nat) :
    Res (En × List S × Nat × List (Event S En)) := do
  let env ← generateEnv d dflt len sites oc
  let n2 := LA.toU64 ((len : Int) - 1)
  if dense ∧ zeroNorm sites then Res.throw .invalidArgument
  else
    let nstep := LA.toU64 ((n2 : Int) - 1 + (if n2 = 1 then 1 else 0))
    let step : Int := if n2 = 1 then 0 else if oc = 0 then 1 else -1
    let initPos := if oc = LA.toU64 ((sites.length : Int) - 1) then LA.toU64 ((oc : Int) - 1) else oc
    let o ← itLoop d above n2 (LA.toU64 ((sites.length : Int) - 2)) (LA.toU64 (2 * nstep)) maxIt 0 e0 step
      ⟨sites, initPos, env⟩ [.init]
    if o.st.oc ≠ initPos ∧ o.st.oc ≠ LA.toU64 ((initPos : Int) - 1) ∧ initPos ≠ LA.toU64 ((sites.length : Int) - 1) then
      Res.throw .runtimeError
    else
      let oc' := if dense ∧ o.st.oc = 0 then 1 else o.st.oc
      let fin ← (if oc' ≠ initPos then moveOc o.st.sites oc' initPos else .ok (o.st.sites, oc') : Res (List S × Nat))
      .ok (o.energy, fin.1, fin.2, o.log ++ [.done o.iteration o.energy fin.1])

end DM
end QuantiT
