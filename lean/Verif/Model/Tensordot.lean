import Verif.Model.BTensorOps
/-
`btensor::tensordot` — /repo/sources/btensor.cpp:782-883, 1843-1946, 1971-2119.
Same simplifications as Model/BTensor.lean.  Dimension numbers are naturals: a negative number is converted
to a huge `size_t`, so it behaves like any other number beyond the rank.
-/
namespace QuantiT
namespace BT
open Spec
variable {G R : Type}

/-! ### torch operations on blocks -/

/-- Position of a multi-index in the row-major storage of a torch tensor. -/
def flat : List Nat → List Nat → Nat
  | _ :: ns, i :: is => i * ns.prod + flat ns is
  | _, _ => 0

/-- The multi-index at a position of the row-major storage. -/
def unflat : List Nat → Nat → List Nat
  | [], _ => []
  | _ :: ns, k => k / ns.prod :: unflat ns (k % ns.prod)

/-- `tensor.reshape(dims)` / `tensor.view(dims)` of torch: same elements in row-major order; throws when the
number of elements differs. -/
def reshapeBlk (dims : List Nat) (b : Blk R) : Res (Blk R) :=
  if dims.prod = b.dims.prod then .ok ⟨dims, fun o => b.f (unflat b.dims (flat dims o))⟩
  else Res.throw .runtimeError

/-- `torch::mm`: product of two matrices; throws when the inner sizes differ. -/
def mm [Semiring R] (a b : Blk R) : Res (Blk R) :=
  match a.dims, b.dims with
  | [n, k], [k', m] =>
    if k = k' then
      .ok ⟨[n, m], fun o => ((List.range k).map fun j => a.f [o.getD 0 0, j] * b.f [j, o.getD 1 0]).sum⟩
    else Res.throw .runtimeError
  | _, _ => Res.throw .runtimeError

/-- `acc.addmm_(a, b)`: adds the product; throws when the sizes differ (torch would broadcast a product of
size one; not modelled). -/
def addmm [Semiring R] (acc : Blk R) (ab : Blk R × Blk R) : Res (Blk R) := do
  let p ← mm ab.1 ab.2
  if p.dims = acc.dims then .ok ⟨acc.dims, fun o => acc.f o + p.f o⟩ else Res.throw .runtimeError

/-! ### Preparation -/

/-- `check_product_compat<true>` for one pair of dimensions, btensor.cpp:788-818.  `section_number` reads
outside the list for a dimension beyond the rank. -/
def checkPair [AddCommMonoid G] [DecidableEq G] (a b : Shape G) (dd : Nat × Nat) : Res Unit :=
  match a[dd.1]?, b[dd.2]? with
  | some d1, some d2 =>
    if ¬ d1.length = d2.length then Res.throw .runtimeError
    else if (d1.zip d2).all (fun ss => decide (ss.1.2 + ss.2.2 = 0)) then .ok ()
    else Res.throw .runtimeError
  | _, _ => Res.ub

/-- The dimensions that are not contracted, in order (btensor.cpp:858-865, 874-881). -/
def outer (dims : List Nat) (rank : Nat) : List Nat := (List.range rank).filter (fun j => decide (j ∉ dims))

/-- `compute_tdot_shape`, btensor.cpp:841-883: checks, then the permutations `p1` (outer then contracted) and
`p2` (contracted then outer).  torch's limit of 64 dimensions in `dim_list_to_bitset` is not modelled. -/
def tdotShape [AddCommMonoid G] [DecidableEq G] (a b : Shape G) (da db : List Nat) :
    Res (List Nat × List Nat) := do
  if ¬ da.length = db.length then Res.throw .runtimeError
  else
    let _ ← (da.zip db).mapM (checkPair a b)
    if ¬ da.Nodup then Res.throw .runtimeError
    else if ¬ db.Nodup then Res.throw .runtimeError
    else .ok (outer da a.length ++ da, db ++ outer db b.length)

/-- One block of `permute_bl`, btensor.cpp:1851-1880: the key is rearranged by `pk`, the tensor by `pt` and
then reshaped to a matrix whose rows are the first `split` dimensions. -/
def matBlk (pk pt : List Nat) (split : Nat) (kb : List Nat × Blk R) : Res (List Nat × Blk R) := do
  let k ← orUb (gather pk kb.1)
  let b ← permBlk pt kb.2
  let m ← reshapeBlk [(b.dims.take split).prod, (b.dims.drop split).prod] b
  .ok (k, m)

/-- `permute_bl`, btensor.cpp:1843-1894 (the stride fix changes no element). -/
def permuteBl (bl : FM (List Nat) (Blk R)) (pk pt : List Nat) (split : Nat) : Res (FM (List Nat) (Blk R)) := do
  let l ← bl.mapM (matBlk pk pt split)
  .ok (sortKeys l)

/-- The shape of the result, `compute_tdot_cval_sectSize`, btensor.cpp:1908-1935, together with
`out_section_by_dim`. -/
def tdotOut [AddCommMonoid G] (a b : BT G R) (da db : List Nat) : Res (BT G R) := do
  let sa ← orUb (gather (outer da a.shape.length) a.shape)
  let sb ← orUb (gather (outer db b.shape.length) b.shape)
  .ok ⟨sa ++ sb, a.rule + b.rule, []⟩

/-! ### The contraction loops -/

/-- Largest `int64_t`. -/
def int64Max : Nat := 2 ^ 63 - 1

/-- `next_index`, btensor.cpp:2001-2016. -/
def nextIndex (dl : Nat) (k : List Nat) : List Nat :=
  if k = [] then k
  else if dl = 0 then k.set (k.length - 1) (k.getD (k.length - 1) 0 + 1)
  else k.set (k.length - dl) int64Max

/-- Last `dl` components of a key. -/
def tailKey (dl : Nat) (k : List Nat) : List Nat := k.drop (k.length - dl)

/-- All but the last `dl` components of a key. -/
def headKey (dl : Nat) (k : List Nat) : List Nat := k.take (k.length - dl)

/-- `find_next_match`, btensor.cpp:2017-2041: what is left of both ranges at the next match, two empty ranges
if there is none.  Each step drops one element, so `n` at least the total length is enough. -/
def findMatch (dl : Nat) : Nat → FM (List Nat) (Blk R) → FM (List Nat) (Blk R) →
    FM (List Nat) (Blk R) × FM (List Nat) (Blk R)
  | n + 1, a :: as, b :: bs =>
    if tailKey dl a.1 < tailKey dl b.1 then findMatch dl n as (b :: bs)
    else if tailKey dl b.1 < tailKey dl a.1 then findMatch dl n (a :: as) bs
    else (a :: as, b :: bs)
  | _, _, _ => ([], [])

/-- The inner accumulation, btensor.cpp:2094-2104. -/
def accumulate [Semiring R] (dl : Nat) : Nat → Blk R → FM (List Nat) (Blk R) → FM (List Nat) (Blk R) → Res (Blk R)
  | n + 1, acc, as, bs =>
    match findMatch dl (as.length + bs.length) as bs with
    | (a :: as', b :: bs') => do
      let acc' ← addmm acc (a.2, b.2)
      accumulate dl n acc' as' (b :: bs')
    | _ => .ok acc
  | 0, acc, _, _ => .ok acc

/-- One column of each operand, btensor.cpp:2069-2108: `ka` and `kb` are the keys at the start of the columns,
`as` and `bs` the columns. -/
def pairStep [AddCommMonoid G] [Semiring R] (dl : Nat) (out : BT G R) (ka kb : List Nat) (as bs : FM (List Nat) (Blk R))
    (acc : FM (List Nat) (Blk R)) : Res (FM (List Nat) (Blk R)) :=
  match findMatch dl (as.length + bs.length) as bs with
  | (a :: as', b :: bs') => do
    let idx := headKey dl ka ++ headKey dl kb
    let sz ← blockSizes out idx
    let m ← mm a.2 b.2
    let m ← accumulate dl (as'.length + 1) m as' (b :: bs')
    let v ← reshapeBlk sz m
    .ok (acc ++ [(idx, v)])
  | _ => .ok acc

/-- The loop over the columns of the right operand, btensor.cpp:2064-2111; `cap` is the size of `out_list`.
`none`: not finished after `fuel` columns. -/
def innerLoop [AddCommMonoid G] [Semiring R] (dl : Nat) (out : BT G R) (cap : Nat) (ka : List Nat) (as : FM (List Nat) (Blk R)) :
    Nat → FM (List Nat) (Blk R) → FM (List Nat) (Blk R) → Option (Res (FM (List Nat) (Blk R)))
  | _, [], acc => some (.ok acc)
  | fuel, b :: bs, acc =>
    if acc.length = cap then some (.ok acc)
    else
      match fuel with
      | 0 => none
      | fuel + 1 =>
        let col := (b :: bs).takeWhile fun e => decide (e.1 < nextIndex dl b.1)
        let rest := (b :: bs).dropWhile fun e => decide (e.1 < nextIndex dl b.1)
        match pairStep dl out ka b.1 as col acc with
        | .ok acc' => innerLoop dl out cap ka as fuel rest acc'
        | .error e => some (.error e)

/-- The loop over the columns of the left operand, btensor.cpp:2058-2113. -/
def outerLoop [AddCommMonoid G] [Semiring R] (dl : Nat) (out : BT G R) (cap : Nat) (t2 : FM (List Nat) (Blk R)) :
    Nat → FM (List Nat) (Blk R) → FM (List Nat) (Blk R) → Option (Res (FM (List Nat) (Blk R)))
  | _, [], acc => some (.ok acc)
  | fuel, a :: as, acc =>
    if acc.length = cap then some (.ok acc)
    else
      match fuel with
      | 0 => none
      | fuel + 1 =>
        let col := (a :: as).takeWhile fun e => decide (e.1 < nextIndex dl a.1)
        let rest := (a :: as).dropWhile fun e => decide (e.1 < nextIndex dl a.1)
        match innerLoop dl out cap a.1 col fuel t2 acc with
        | some (.ok acc') => outerLoop dl out cap t2 fuel rest acc'
        | r => r

/-- `tensordot(other, dims_self, dims_other)`, btensor.cpp:1971-2119.  `none`: still looping after `fuel`
columns. -/
def tensordot [AddCommMonoid G] [DecidableEq G] [Semiring R] (fuel : Nat) (a b : BT G R) (da db : List Nat) :
    Option (Res (BT G R)) :=
  match (do
    let p ← tdotShape a.shape b.shape da db
    let t1 ← permuteBl a.blocks p.1 p.1 (a.shape.length - da.length)
    let t2 ← permuteBl b.blocks (p.2.drop da.length ++ p.2.take da.length) p.2 da.length
    let out ← tdotOut a b da db
    (.ok (t1, t2, out) : Res _)) with
  | .error e => some (.error e)
  | .ok (t1, t2, out) =>
    match outerLoop da.length out (max (secCounts out.shape).prod 1) t2 fuel t1 [] with
    | none => none
    | some (.error e) => some (.error e)
    | some (.ok l) => some (.ok { out with blocks := sortKeys l })

/-- `tensor_product_shape`, btensor.cpp:1937-1946: the shape of `tensordot(other, {}, {})` with no block. -/
def tensorProductShape [AddCommMonoid G] [DecidableEq G] (a b : BT G R) : Res (BT G R) := do
  let _ ← tdotShape a.shape b.shape [] []
  tdotOut a b [] []

end BT
end QuantiT
