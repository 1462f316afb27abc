import Verif.Model.Tensordot
/-
`btensor::reshape` and `btensor::reshape_as` — /repo/sources/btensor.cpp:2760-3083.
Same simplifications as Model/BTensor.lean.
-/
namespace QuantiT
namespace BT
open Spec
variable {G R : Type}

/-- The do-while loop of `reshape_block_prop`, btensor.cpp:2805-2817: `body` at every index met, starting from
`idx`, until the odometer is back at zero.  `fuel` bounds the number of rounds; the callers give one round per
index of the grid, and an exhausted bound stands for the write past the end of `out` (which has one place per
index of the grid). -/
def gridLoop {α : Type} (counts : List Nat) (body : List Nat → Res α) : Nat → List Nat → Res (List α)
  | 0, _ => Res.ub
  | n + 1, idx => do
    let x ← body idx
    let idx' := incrRight counts idx
    if idx'.any (· ≠ 0) then do
      let r ← gridLoop counts body n idx'
      .ok (x :: r)
    else .ok [x]

/-- `reshape_block_prop`, btensor.cpp:2789-2821, for one group of dimensions, sizes and charges together. -/
def fuseDim [AddCommMonoid G] (ds : Shape G) : Res (Dim G) :=
  gridLoop (secCounts ds)
    (fun j => do
      let q ← blockProps ds j
      .ok ((q.map Prod.fst).foldl (· * ·) 1, (q.map Prod.snd).foldl (· + ·) 0))
    (secCounts ds).prod (List.replicate ds.length 0)

/-- The inner loop of `reshape_block_index`, btensor.cpp:2845-2857 (and `flatten`, 2902-2916): from the last
component to the first, accumulating the index and the stride. -/
def flattenLoop (counts idx : List Nat) : Nat × Nat :=
  (counts.zip idx).foldr (fun ni a => (a.1 + a.2 * ni.2, a.2 * ni.1)) (0, 1)

/-- `unflatten`, btensor.cpp:2917-2929: from the last component to the first, remainder then quotient; `%` by
zero is undefined.  The second component is what is left of the flat index. -/
def unflattenLoop : List Nat → Nat → Res (List Nat × Nat)
  | [], k => .ok ([], k)
  | n :: ns, k => do
    let r ← unflattenLoop ns k
    if n = 0 then Res.ub else .ok (r.2 % n :: r.1, r.2 / n)

/-- Elements `[a, b)` of a list. -/
def slice {α : Type} (ab : Nat × Nat) (l : List α) : List α := (l.take ab.2).drop ab.1

/-- The bounds of the groups: consecutive elements of `m_index_group`, btensor.cpp:2990-2993. -/
def groupBounds (cuts : List Nat) (rank : Nat) : List (Nat × Nat) := (0 :: cuts).zip (cuts ++ [rank])

/-- `new_block_shape`, btensor.cpp:2865-2893.  `m` is `m_index_group`, `i` the dimension, `p` the position of
`out_it`. -/
def newShapeLoop (m : List Nat) : Nat → Nat → List Nat → List Nat → List Nat
  | _, _, [], out => out
  | i, p, s :: ss, out =>
    let p' := if m.getD (p + 1) 0 ≤ i then p + 1 else p
    newShapeLoop m (i + 1) p' ss (out.set p' (out.getD p' 1 * s))

/-- `reshape(index_groups)`, btensor.cpp:2985-3024.  Groups that are not within the tensor or run backwards make
out of range iterators; a rank 0 tensor makes `sections_by_dim.end() - 1` invalid (3000). -/
def reshape [AddCommMonoid G] [DecidableEq G] (t : BT G R) (cuts : List Nat) : Res (BT G R) := do
  let gb := groupBounds cuts t.shape.length
  if t.shape = [] then Res.ub
  else if ¬ gb.all (fun ab => decide (ab.1 ≤ ab.2 ∧ ab.2 ≤ t.shape.length)) then Res.ub
  else
    let sh ← gb.mapM fun ab => fuseDim (slice ab t.shape)
    let bl ← t.blocks.mapM fun kb => do
      let key := gb.map fun ab => (flattenLoop (slice ab (secCounts t.shape)) (slice ab kb.1)).1
      let sz ← blockSizes t kb.1
      let b ← reshapeBlk (newShapeLoop (0 :: cuts ++ [t.shape.length]) 0 0 sz (List.replicate gb.length 1)) kb.2
      .ok (key, b)
    mkChecked sh t.rule (sortKeys bl)

/-- The loop of `compatible_c_vals` and `compatible_block_size`, btensor.cpp:2945-2982: both odometers advance
together until the left one is back at zero or a comparison fails.  `none`: still running after that many
rounds. -/
def compatLoop (c c' : List Nat) (same : List Nat → List Nat → Res Bool) :
    Nat → List Nat → List Nat → Option (Res Bool)
  | 0, _, _ => none
  | n + 1, i, j =>
    match same i j with
    | .error e => some (.error e)
    | .ok false => some (.ok false)
    | .ok true =>
      let i' := incrRight c i
      if i'.any (· ≠ 0) then compatLoop c c' same n i' (incrRight c' j) else some (.ok true)

/-- Comparison of the total charges of two blocks, btensor.cpp:2955-2961. -/
def sameCharge [AddCommMonoid G] [DecidableEq G] (a b : Shape G) (i j : List Nat) : Res Bool := do
  let p ← blockProps a i
  let q ← blockProps b j
  .ok (decide ((p.map Prod.snd).foldl (· + ·) 0 = (q.map Prod.snd).foldl (· + ·) 0))

/-- Comparison of the numbers of elements of two blocks, btensor.cpp:2974-2978. -/
def sameNumel (a b : Shape G) (i j : List Nat) : Res Bool := do
  let p ← blockProps a i
  let q ← blockProps b j
  .ok (decide ((p.map Prod.fst).foldl (· * ·) 1 = (q.map Prod.fst).foldl (· * ·) 1))

/-- `compatible_c_vals` / `compatible_block_size` from index zero.  One round per index of the left grid is
enough (`compatLoop_eq`). -/
def compatible (a b : Shape G) (same : List Nat → List Nat → Res Bool) : Res Bool :=
  (compatLoop (secCounts a) (secCounts b) same (max 1 (secCounts a).prod)
    (List.replicate a.length 0) (List.replicate b.length 0)).getD Res.ub

/-- One block of `reshape_as`, btensor.cpp:3054-3077. -/
def reshapeAsBlk [AddCommMonoid G] [DecidableEq G] (overwrite : Bool) (t other : BT G R)
    (kb : List Nat × Blk R) : Res (List Nat × Blk R) := do
  let u ← unflattenLoop (secCounts other.shape) (flattenLoop (secCounts t.shape) kb.1).1
  let ok ← (if overwrite then conserves other u.1 else .ok true : Res Bool)
  if ¬ ok then Res.throw .invalidArgument
  else
    let sz ← blockSizes other u.1
    let b ← reshapeBlk sz kb.2
    .ok (u.1, b)

/-- `reshape_as<Mode>(other)`, btensor.cpp:3026-3083; `overwrite` is the mode `overwrite_c_vals`. -/
def reshapeAs [AddCommMonoid G] [DecidableEq G] (overwrite : Bool) (t other : BT G R) : Res (BT G R) :=
  if ¬ (secCounts other.shape).prod = (secCounts t.shape).prod then Res.throw .invalidArgument
  else do
    let cq ← (if overwrite then .ok true else compatible t.shape other.shape (sameCharge t.shape other.shape) :
      Res Bool)
    if ¬ cq then Res.throw .invalidArgument
    else
      let cs ← compatible t.shape other.shape (sameNumel t.shape other.shape)
      if ¬ cs then Res.throw .invalidArgument
      else
        let bl ← t.blocks.mapM (reshapeAsBlk overwrite t other)
        mkChecked other.shape (if overwrite then other.rule else t.rule) (sortKeys bl)

end BT
end QuantiT
