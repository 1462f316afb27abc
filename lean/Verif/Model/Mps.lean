import Verif.Base
import Verif.Model.BTensorOps
import Verif.Model.Tensordot
import Mathlib.Algebra.BigOperators.Group.Finset.Basic
/-
Model of the chain types of MPT.h and MPT.cpp: construction checks and `MPS::move_oc`.
-/
namespace QuantiT
namespace MP
open Finset
variable {R G : Type}

/-! ### Construction -/

/-- The `std::all_of` of `MPS::check_ranks` / `MPO::check_ranks`, MPT.cpp:123-130 and 173-180, on the sizes of
the tensors.  `sizes()[2]` and `sizes()[0]` are read before the rank is compared, unchecked: undefined behaviour
for a tensor with fewer dimensions. -/
def ranksLoop (rank : Nat) : Nat → List (List Nat) → Res Bool
  | _, [] => .ok true
  | prev, ds :: rest =>
    match ds[2]? with
    | none => Res.ub
    | some bond =>
      if ds.length = rank then
        match ds[0]? with
        | none => Res.ub
        | some left => if prev = left then ranksLoop rank bond rest else .ok false
      else .ok false

/-- `MPS::check_ranks` (rank 3) and `MPO::check_ranks` (rank 4), MPT.cpp:120-132, 170-183.  `operator[](0)` on an
empty chain and `sizes()[0]` of a tensor without dimensions are undefined behaviour. -/
def checkRanks (rank : Nat) (sizes : List (List Nat)) : Res Bool :=
  match sizes with
  | [] => Res.ub
  | ds :: _ =>
    match ds[0]? with
    | none => Res.ub
    | some prev => ranksLoop rank prev sizes

/-- `MPS(std::vector<Tens>, oc)` and its `initializer_list` and `MPT` variants, MPT.h:306-348: the position of
the orthogonality center of the chain that is built. -/
def mkMps (sizes : List (List Nat)) (oc : Nat) : Res Nat := do
  let ok ← checkRanks 3 sizes
  if ¬ ok then Res.throw .invalidArgument
  else if oc ≥ sizes.length ∧ oc ≠ 0 then Res.throw .invalidArgument
  else .ok oc

/-- `MPS(length, val, oc)` with `check_one`, MPT.h:325-334, MPT.cpp:113-118.  `check_one` tests the rank first. -/
def mkMpsFill (len : Nat) (val : List Nat) (oc : Nat) : Res Nat :=
  let ok := decide (val.length = 3 ∧ val[0]? = val[2]?)
  if oc ≥ len ∧ oc ≠ 0 then Res.throw .invalidArgument
  else if ¬ ok then Res.throw .invalidArgument
  else .ok oc

/-- `MPO(std::vector<Tens>)` and its `initializer_list` and `MPT` variants, MPT.h:422-467. -/
def mkMpo (sizes : List (List Nat)) : Res Unit := do
  let ok ← checkRanks 4 sizes
  if ¬ ok then Res.throw .invalidArgument else .ok ()

/-- `MPO(size, val)` with `check_one`, MPT.h:446-452, MPT.cpp:134-141. -/
def mkMpoFill (val : List Nat) : Res Unit :=
  if val.length = 4 ∧ val[0]? = val[2]? then .ok () else Res.throw .invalidArgument

/-- `check_product_compat<false>(a, b, {da}, {db})`, btensor.cpp:782-825, for one pair of dimensions: equal
numbers of sections and charges that compose to neutral.  Section sizes are not looked at. -/
def productCompat [AddCommMonoid G] [DecidableEq G] (a b : Shape G) (da db : Nat) : Res Bool :=
  match a[da]?, b[db]? with
  | some d1, some d2 =>
    if ¬ d1.length = d2.length then .ok false
    else .ok ((d1.zip d2).all fun ss => decide (ss.1.2 + ss.2.2 = 0))
  | _, _ => Res.ub

/-- The loop of `bMPS::check_ranks` / `bMPO::check_ranks`, MPT.cpp:188-193, 202-207. -/
def bRanksLoop [AddCommMonoid G] [DecidableEq G] (rank : Nat) : Shape G → List (Shape G) → Res Bool
  | _, [] => .ok true
  | it, next :: rest => do
    if next.length = rank then
      if ← productCompat it next 2 0 then bRanksLoop rank next rest else .ok false
    else .ok false

/-- `bMPS::check_ranks` (rank 3) and `bMPO::check_ranks` (rank 4), MPT.cpp:184-209; an empty chain is
dereferenced. -/
def bCheckRanks [AddCommMonoid G] [DecidableEq G] (rank : Nat) : List (Shape G) → Res Bool
  | [] => Res.ub
  | it :: rest => if it.length = rank then bRanksLoop rank it rest else .ok false

/-- `bMPS(std::vector<Tens>, oc)` and variants, MPT.h:524-570. -/
def mkBMps [AddCommMonoid G] [DecidableEq G] (chain : List (Shape G)) (oc : Nat) : Res Nat := do
  let ok ← bCheckRanks 3 chain
  if ¬ ok then Res.throw .invalidArgument
  else if oc ≥ chain.length ∧ oc ≠ 0 then Res.throw .invalidArgument
  else .ok oc

/-- `bMPO(std::vector<Tens>)` and variants, MPT.h:625-675. -/
def mkBMpo [AddCommMonoid G] [DecidableEq G] (chain : List (Shape G)) : Res Unit := do
  let ok ← bCheckRanks 4 chain
  if ¬ ok then Res.throw .invalidArgument else .ok ()

/-! ### Dense tensor primitives used on chains -/

/-- `torch::tensordot(a, b, {da}, {db})` over one pair of dimensions of equal size.  torch's broadcasting of a
contracted dimension of size one is not modelled: any difference in size is an error here. -/
def dot1 [Semiring R] (a b : Blk R) (da db : Nat) : Res (Blk R) :=
  match a.dims[da]?, b.dims[db]? with
  | some n, some m =>
    if n = m then
      .ok ⟨a.dims.eraseIdx da ++ b.dims.eraseIdx db, fun o =>
        ∑ k ∈ range n, a.f ((o.take (a.dims.length - 1)).insertIdx da k)
          * b.f ((o.drop (a.dims.length - 1)).insertIdx db k)⟩
    else Res.throw .runtimeError
  | _, _ => Res.throw .outOfRange

/-- `x.mul(d)` for a vector `d` as long as the last dimension of `x` (torch broadcasting); other sizes are not
modelled and are an error here. -/
def mulLast [Mul R] [Zero R] (x d : Blk R) : Res (Blk R) :=
  if d.dims.length = 1 ∧ x.dims.getLast? = d.dims.head? then
    .ok ⟨x.dims, fun o => x.f o * d.f [o.getLastD 0]⟩
  else Res.throw .runtimeError

/-- `x.conj()`. -/
def conjBlk (c : R → R) (x : Blk R) : Blk R := ⟨x.dims, fun o => c (x.f o)⟩

/-! ### `move_oc` -/

/-- A dense MPS: tensors and `orthogonality_center`, MPT.h:284-406. -/
structure MPS (R : Type) where
  sites : List (Blk R)
  oc : Nat

/-- One turn of the first loop of `MPS::move_oc`, MPT.cpp:43-56: the center moves from `oc` to `oc - 1`. -/
def stepLeft [Semiring R] (c : R → R) (svd : Blk R → Nat → Blk R × Blk R × Blk R) (m : MPS R) : Res (MPS R) := do
  let curr ← BT.orUb m.sites[m.oc]?
  let next ← BT.orUb m.sites[m.oc - 1]?
  let (u, d, v) := svd curr 1
  let vp ← BT.permBlk [2, 0, 1] v
  let ud ← mulLast u d
  let next' ← dot1 next ud 2 0
  .ok ⟨(m.sites.set m.oc (conjBlk c vp)).set (m.oc - 1) next', m.oc - 1⟩

/-- One turn of the second loop of `MPS::move_oc`, MPT.cpp:60-73: the center moves from `oc` to `oc + 1`.
`.t()` of a matrix is the permutation `{1, 0}`. -/
def stepRight [Semiring R] (c : R → R) (svd : Blk R → Nat → Blk R × Blk R × Blk R) (m : MPS R) : Res (MPS R) := do
  let curr ← BT.orUb m.sites[m.oc]?
  let next ← BT.orUb m.sites[m.oc + 1]?
  let (u, d, v) := svd curr 2
  let vd ← mulLast v d
  let vt ← BT.permBlk [1, 0] vd
  let next' ← dot1 (conjBlk c vt) next 1 0
  .ok ⟨(m.sites.set m.oc u).set (m.oc + 1) next', m.oc + 1⟩

/-- `while (i < orthogonality_center)`, MPT.cpp:41-57; `n` is the number of turns, `oc - i`. -/
def loopLeft [Semiring R] (c : R → R) (svd : Blk R → Nat → Blk R × Blk R × Blk R) : Nat → MPS R → Res (MPS R)
  | 0, m => .ok m
  | n + 1, m => do loopLeft c svd n (← stepLeft c svd m)

/-- `while (i > orthogonality_center)`, MPT.cpp:59-75; `n` is the number of turns, `i - oc`. -/
def loopRight [Semiring R] (c : R → R) (svd : Blk R → Nat → Blk R × Blk R × Blk R) : Nat → MPS R → Res (MPS R)
  | 0, m => .ok m
  | n + 1, m => do loopRight c svd n (← stepRight c svd m)

/-- `MPS::move_oc(int i)`, MPT.cpp:27-77.  The initial `(*this)[orthogonality_center].sizes()` reads the current
center, undefined behaviour when it lies outside the chain.  `quantit::svd(tensor, split)` is a parameter.  The
loop conditions compare `i` and the center as unsigned integers, which agrees with the integers since `i` is
not negative. -/
def moveOc [Semiring R] (c : R → R) (svd : Blk R → Nat → Blk R × Blk R × Blk R) (m : MPS R) (i : Int) :
    Res (MPS R) := do
  if ¬ (0 ≤ i ∧ i < m.sites.length) then Res.throw .invalidArgument
  else
    let _ ← BT.orUb m.sites[m.oc]?
    let m' ← loopLeft c svd (m.oc - i.toNat) m
    loopRight c svd (i.toNat - m'.oc) m'

end MP
end QuantiT
