import Verif.Spec.ChainStore
import Verif.Model.Mps
import Verif.Model.BlockMps
/-
Construction, copies, moves and modification of MPS objects — MPT.h:89-269 (`vector_lift`), 305-406 (`MPS`), 582 (`bMPS`).
Copying a chain copies handles on torch tensors; no function modelled here writes into a tensor, so chains are values
(C125_values, for the handles in Model/ChainRefs.lean).
-/
namespace QuantiT
namespace MP
open Spec
variable {R G : Type}

/-- One statement.  Constructors: `mkMps`, `mkMpsFill` (Model/Mps.lean).  Copies and moves, MPT.h:319-320: the source of a move
loses its tensors and keeps its center.  Assignment takes its argument by value and swaps, MPT.h:372-383.  The modifiers of
`std::vector`, MPT.h:173-199, are undefined out of range and do not look at the center.  A variable that does not exist is not a
program; `ub` here. -/
def chainStep [Semiring R] (c : R → R) (svd : Blk R → Nat → Blk R × Blk R × Blk R) (vs : List (MPS R)) :
    ChainCmd R → Res (List (MPS R))
  | .build s oc => do
    let oc' ← mkMps (s.map Blk.dims) oc
    .ok (vs ++ [⟨s, oc'⟩])
  | .fill n t oc => do
    let oc' ← mkMpsFill n t.dims oc
    .ok (vs ++ [⟨List.replicate n t, oc'⟩])
  | .empty => .ok (vs ++ [⟨[], 0⟩])
  | .copy y => do
    let m ← BT.orUb vs[y]?
    .ok (vs ++ [m])
  | .take y => do
    let m ← BT.orUb vs[y]?
    .ok (vs.set y ⟨[], m.oc⟩ ++ [m])
  | .assign x y => do
    let m ← BT.orUb vs[y]?
    let _ ← BT.orUb vs[x]?
    .ok (vs.set x m)
  | .assignTake x y => do
    let m ← BT.orUb vs[y]?
    let _ ← BT.orUb vs[x]?
    .ok ((vs.set y ⟨[], m.oc⟩).set x m)
  | .swap x y => do
    let m ← BT.orUb vs[x]?
    let m' ← BT.orUb vs[y]?
    .ok ((vs.set x m').set y m)
  | .moveOc x i => do
    let m ← BT.orUb vs[x]?
    let m' ← moveOc c svd m i
    .ok (vs.set x m')
  | .pushBack x t => do
    let m ← BT.orUb vs[x]?
    .ok (vs.set x ⟨m.sites ++ [t], m.oc⟩)
  | .popBack x => do
    let m ← BT.orUb vs[x]?
    if m.sites.length = 0 then Res.ub else .ok (vs.set x ⟨m.sites.dropLast, m.oc⟩)
  | .erase x p => do
    let m ← BT.orUb vs[x]?
    if m.sites.length ≤ p then Res.ub else .ok (vs.set x ⟨m.sites.eraseIdx p, m.oc⟩)
  | .insert x p t => do
    let m ← BT.orUb vs[x]?
    if m.sites.length < p then Res.ub else .ok (vs.set x ⟨m.sites.insertIdx p t, m.oc⟩)
  | .clear x => do
    let m ← BT.orUb vs[x]?
    .ok (vs.set x ⟨[], m.oc⟩)

/-- A program; an exception ends it. -/
def chainRun [Semiring R] (c : R → R) (svd : Blk R → Nat → Blk R × Blk R × Blk R) :
    List (ChainCmd R) → List (MPS R) → Res (List (MPS R))
  | [], vs => .ok vs
  | s :: p, vs => do
    let vs' ← chainStep c svd vs s
    chainRun c svd p vs'

/-- `bMPS(begin, end)`, MPT.h:582: no check, and the center is not initialised (property.h: `content value; property() = default;`).
`junk` is what happens to be in its place. -/
def bmpsFromRange (junk : Nat) (sites : List (BT G R)) : BN.BMPS G R := ⟨sites, junk⟩

end MP
end QuantiT
