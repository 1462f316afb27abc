import Verif.Spec.ChainRefs
import Verif.Model.ChainStore
/-
Chains as vectors of handles — MPT.h:89-269 (`vector_lift` holds a `std::vector<torch::Tensor>`), 305-406, MPT.cpp:27-77.

A `torch::Tensor` is a counted reference: copying a vector of them copies the references, assigning to one of them makes it
refer to another tensor, and an operation in place changes the tensor for everyone who refers to it.  Simplified: a tensor is
one cell of a memory; views of part of a tensor are not modelled here (see Model/Shared.lean), nor are handles kept outside of
the chains, so the tensors given to a constructor, to `push_back` and to `insert` belong to the chain alone.  Cells are never
reused.  Operations in place do not fail and keep the sizes.
-/
namespace QuantiT
namespace MP
open Spec
variable {R : Type}

/-- A program starts without variables. -/
def refsInit [Zero R] : Refs R := ⟨[], fun _ => ⟨[], fun _ => 0⟩, 0⟩

/-- Writing one cell. -/
def setCell (h : Nat → Blk R) (a : Nat) (t : Blk R) : Nat → Blk R := fun b => if b = a then t else h b

/-- New tensors, each in a cell of its own. -/
def newCells : List (Blk R) → (Nat → Blk R) → Nat → List Nat × (Nat → Blk R) × Nat
  | [], h, n => ([], h, n)
  | t :: ts, h, n =>
    let r := newCells ts (setCell h n t) (n + 1)
    (n :: r.1, r.2)

/-- The chain behind the handles. -/
def chainOf (h : Nat → Blk R) (v : List Nat × Nat) : MPS R := ⟨v.1.map h, v.2⟩

/-- The chains of all variables, which is what a program can look at. -/
def chainsOf (s : Refs R) : List (MPS R) := s.vars.map (chainOf s.heap)

/-- One turn of the first loop of `MPS::move_oc` on handles, MPT.cpp:43-56: `curr_oc = …` and `next_oc = …` assign handles on
tensors that `svd` and `tensordot` have just made. -/
def refLeft [Semiring R] (c : R → R) (svd : Blk R → Nat → Blk R × Blk R × Blk R) (v : List Nat × Nat) (h : Nat → Blk R) (n : Nat) :
    Res ((List Nat × Nat) × (Nat → Blk R) × Nat) := do
  let curr ← BT.orUb v.1[v.2]?
  let next ← BT.orUb v.1[v.2 - 1]?
  let (u, d, w) := svd (h curr) 1
  let vp ← BT.permBlk [2, 0, 1] w
  let ud ← mulLast u d
  let next' ← dot1 (h next) ud 2 0
  .ok (((v.1.set v.2 n).set (v.2 - 1) (n + 1), v.2 - 1), setCell (setCell h n (conjBlk c vp)) (n + 1) next', n + 2)

/-- One turn of the second loop on handles, MPT.cpp:60-73. -/
def refRight [Semiring R] (c : R → R) (svd : Blk R → Nat → Blk R × Blk R × Blk R) (v : List Nat × Nat) (h : Nat → Blk R) (n : Nat) :
    Res ((List Nat × Nat) × (Nat → Blk R) × Nat) := do
  let curr ← BT.orUb v.1[v.2]?
  let next ← BT.orUb v.1[v.2 + 1]?
  let (u, d, w) := svd (h curr) 2
  let vd ← mulLast w d
  let vt ← BT.permBlk [1, 0] vd
  let next' ← dot1 (conjBlk c vt) (h next) 1 0
  .ok (((v.1.set v.2 n).set (v.2 + 1) (n + 1), v.2 + 1), setCell (setCell h n u) (n + 1) next', n + 2)

/-- The turns of a loop. -/
def refLoop (step : (List Nat × Nat) → (Nat → Blk R) → Nat → Res ((List Nat × Nat) × (Nat → Blk R) × Nat)) :
    Nat → (List Nat × Nat) × (Nat → Blk R) × Nat → Res ((List Nat × Nat) × (Nat → Blk R) × Nat)
  | 0, r => .ok r
  | k + 1, r => do refLoop step k (← step r.1 r.2.1 r.2.2)

/-- `MPS::move_oc(int i)` on handles, MPT.cpp:27-77; see `moveOc`. -/
def refMoveOc [Semiring R] (c : R → R) (svd : Blk R → Nat → Blk R × Blk R × Blk R) (v : List Nat × Nat) (h : Nat → Blk R) (n : Nat)
    (i : Int) : Res ((List Nat × Nat) × (Nat → Blk R) × Nat) := do
  if ¬ (0 ≤ i ∧ i < v.1.length) then Res.throw .invalidArgument
  else
    let _ ← BT.orUb v.1[v.2]?
    let r ← refLoop (refLeft c svd) (v.2 - i.toNat) (v, h, n)
    refLoop (refRight c svd) (i.toNat - r.1.2) r

/-- One statement on whole chains, on handles; line by line as `chainStep` (Model/ChainStore.lean), with the lines of MPT.h given
there.  `vector_lift(lenght, val)` fills the vector with copies of one handle. -/
def refChain [Semiring R] (c : R → R) (svd : Blk R → Nat → Blk R × Blk R × Blk R) (s : Refs R) : ChainCmd R → Res (Refs R)
  | .build ts oc => do
    let oc' ← mkMps (ts.map Blk.dims) oc
    let r := newCells ts s.heap s.next
    .ok ⟨s.vars ++ [(r.1, oc')], r.2.1, r.2.2⟩
  | .fill k t oc => do
    let oc' ← mkMpsFill k t.dims oc
    .ok ⟨s.vars ++ [(List.replicate k s.next, oc')], setCell s.heap s.next t, s.next + 1⟩
  | .empty => .ok { s with vars := s.vars ++ [([], 0)] }
  | .copy y => do
    let m ← BT.orUb s.vars[y]?
    .ok { s with vars := s.vars ++ [m] }
  | .take y => do
    let m ← BT.orUb s.vars[y]?
    .ok { s with vars := s.vars.set y ([], m.2) ++ [m] }
  | .assign x y => do
    let m ← BT.orUb s.vars[y]?
    let _ ← BT.orUb s.vars[x]?
    .ok { s with vars := s.vars.set x m }
  | .assignTake x y => do
    let m ← BT.orUb s.vars[y]?
    let _ ← BT.orUb s.vars[x]?
    .ok { s with vars := (s.vars.set y ([], m.2)).set x m }
  | .swap x y => do
    let m ← BT.orUb s.vars[x]?
    let m' ← BT.orUb s.vars[y]?
    .ok { s with vars := (s.vars.set x m').set y m }
  | .moveOc x i => do
    let m ← BT.orUb s.vars[x]?
    let r ← refMoveOc c svd m s.heap s.next i
    .ok ⟨s.vars.set x r.1, r.2.1, r.2.2⟩
  | .pushBack x t => do
    let m ← BT.orUb s.vars[x]?
    .ok ⟨s.vars.set x (m.1 ++ [s.next], m.2), setCell s.heap s.next t, s.next + 1⟩
  | .popBack x => do
    let m ← BT.orUb s.vars[x]?
    if m.1.length = 0 then Res.ub else .ok { s with vars := s.vars.set x (m.1.dropLast, m.2) }
  | .erase x p => do
    let m ← BT.orUb s.vars[x]?
    if m.1.length ≤ p then Res.ub else .ok { s with vars := s.vars.set x (m.1.eraseIdx p, m.2) }
  | .insert x p t => do
    let m ← BT.orUb s.vars[x]?
    if m.1.length < p then Res.ub
    else .ok ⟨s.vars.set x (m.1.insertIdx p s.next, m.2), setCell s.heap s.next t, s.next + 1⟩
  | .clear x => do
    let m ← BT.orUb s.vars[x]?
    .ok { s with vars := s.vars.set x ([], m.2) }

/-- The loop of `vector_lift::to`, MPT.h:202-214: the tensors of the result in order, each `atensor.to(options)`, which is the handle
`atensor` itself when nothing is to be converted (and `copy` is false), else a handle on a new tensor. -/
def convCells (fits : Blk R → Bool) (conv : Blk R → Blk R) : List Nat → (Nat → Blk R) → Nat → List Nat × (Nat → Blk R) × Nat
  | [], h, n => ([], h, n)
  | a :: l, h, n =>
    if fits (h a) then
      let r := convCells fits conv l h n
      (a :: r.1, r.2)
    else
      let r := convCells fits conv l (setCell h n (conv (h a))) (n + 1)
      (n :: r.1, r.2)

/-- One statement.  `to`, MPT.h:202-256, starts from `empty_copy`, which keeps the center, MPT.h:401; `to_`, MPT.h:257-268, swaps the
tensors with those of the result.  `x[p] = y[q]` goes through `vector_lift::operator[]`, MPT.h:144-145, without check of the position, and through
`torch::Tensor::operator=`, which copies the handle.  An operation in place on `x[p]` writes the cell. -/
def refStep [Semiring R] (c : R → R) (svd : Blk R → Nat → Blk R × Blk R × Blk R) (s : Refs R) : SiteCmd R → Res (Refs R)
  | .chain k => refChain c svd s k
  | .site x p y q => do
    let m ← BT.orUb s.vars[y]?
    let a ← BT.orUb m.1[q]?
    let m' ← BT.orUb s.vars[x]?
    let _ ← BT.orUb m'.1[p]?
    .ok { s with vars := s.vars.set x (m'.1.set p a, m'.2) }
  | .edit x p g => do
    let m ← BT.orUb s.vars[x]?
    let a ← BT.orUb m.1[p]?
    .ok { s with heap := setCell s.heap a ⟨(s.heap a).dims, g (s.heap a)⟩ }
  | .toNew y fits conv => do
    let m ← BT.orUb s.vars[y]?
    let r := convCells fits conv m.1 s.heap s.next
    .ok ⟨s.vars ++ [(r.1, m.2)], r.2.1, r.2.2⟩
  | .toSelf x fits conv => do
    let m ← BT.orUb s.vars[x]?
    let r := convCells fits conv m.1 s.heap s.next
    .ok ⟨s.vars.set x (r.1, m.2), r.2.1, r.2.2⟩

/-- A program; an exception ends it. -/
def refRun [Semiring R] (c : R → R) (svd : Blk R → Nat → Blk R × Blk R × Blk R) : List (SiteCmd R) → Refs R → Res (Refs R)
  | [], s => .ok s
  | k :: p, s => do
    let s' ← refStep c svd s k
    refRun c svd p s'

/-- One statement if every chain were a value of its own: `chainStep`, statements on a site that change this site of this
variable and nothing else, and conversions of all tensors. -/
def ownStep [Semiring R] (c : R → R) (svd : Blk R → Nat → Blk R × Blk R × Blk R) (vs : List (MPS R)) : SiteCmd R → Res (List (MPS R))
  | .chain k => chainStep c svd vs k
  | .site x p y q => do
    let m ← BT.orUb vs[y]?
    let t ← BT.orUb m.sites[q]?
    let m' ← BT.orUb vs[x]?
    let _ ← BT.orUb m'.sites[p]?
    .ok (vs.set x ⟨m'.sites.set p t, m'.oc⟩)
  | .edit x p g => do
    let m ← BT.orUb vs[x]?
    let t ← BT.orUb m.sites[p]?
    .ok (vs.set x ⟨m.sites.set p ⟨t.dims, g t⟩, m.oc⟩)
  | .toNew y fits conv => do
    let m ← BT.orUb vs[y]?
    .ok (vs ++ [⟨m.sites.map fun t => if fits t then t else conv t, m.oc⟩])
  | .toSelf x fits conv => do
    let m ← BT.orUb vs[x]?
    .ok (vs.set x ⟨m.sites.map fun t => if fits t then t else conv t, m.oc⟩)

/-- A program of independent values. -/
def ownRun [Semiring R] (c : R → R) (svd : Blk R → Nat → Blk R × Blk R × Blk R) :
    List (SiteCmd R) → List (MPS R) → Res (List (MPS R))
  | [], vs => .ok vs
  | k :: p, vs => do
    let vs' ← ownStep c svd vs k
    ownRun c svd p vs'

end MP
end QuantiT
