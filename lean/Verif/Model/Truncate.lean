import Verif.Base
import Mathlib.Algebra.Order.Group.Unbundled.Abs
import Mathlib.Algebra.Order.Field.Basic
import Mathlib.Tactic.Ring
/-
Truncation of dense decompositions (sources/LinearAlgebra.cpp).

A torch tensor is seen as a batch of rows along its last dimension: the other dimensions are flattened into
the list of rows.  Coefficients are an ordered field; `pw` stands for `x ↦ x^pow`, so rounding is not modelled.
`size_t` comparisons are modelled with their wrap-around modulo 2^64.
-/
namespace QuantiT
namespace LA
variable {α : Type}

/-- A tensor seen along its last dimension: `n` is the size of that dimension, every row has that length. -/
structure Rows (α : Type) where
  n : Nat
  rows : List (List α)

/-- An `int64_t` converted to `size_t` in a mixed comparison or subtraction. -/
def toU64 (i : Int) : Nat := (i % 2 ^ 64).toNat

/-- `d.index({Ellipsis, i})`: torch wraps a negative index once and throws an IndexError outside the range.
(Used at sources/LinearAlgebra.cpp:33,42,65,71.) -/
def Rows.col [Zero α] (d : Rows α) (i : Int) : Res (List α) :=
  if 0 ≤ i ∧ i < d.n then .ok (d.rows.map fun r => r.getD i.toNat 0)
  else if -(d.n : Int) ≤ i ∧ i < 0 then .ok (d.rows.map fun r => r.getD (i + d.n).toNat 0)
  else Res.throw .outOfRange

/-- `t.index({Ellipsis, Slice(None, k)})`: the first `k` columns; a negative `k` counts from the end.
(Used at sources/LinearAlgebra.cpp:83,102.) -/
def Rows.sliceTo (d : Rows α) (k : Int) : Rows α :=
  let k' := if k < 0 then (k + d.n).toNat else min k.toNat d.n
  ⟨k', d.rows.map (·.take k')⟩

variable [Field α] [LinearOrder α]

theorem Rows.col_ok {d : Rows α} {i : Int} {c} (h : d.col i = .ok c) : -(d.n : Int) ≤ i ∧ i < d.n := by
  unfold Rows.col at h
  split at h
  · omega
  · split at h
    · omega
    · cases h

/-- The loop of `compute_last_index`. (sources/LinearAlgebra.cpp:66-72) -/
def lastLoop (d : Rows α) (pw : α → α) (toln : α) (minS maxS : Nat) (last : Int) (trunc : List α) : Res Int :=
  if toU64 last < minS then .ok last
  else if trunc.any (fun t => decide (toln < t)) ∧ toU64 last < maxS then .ok last
  else
    match h : d.col (last - 1) with
    | .error e => .error e
    | .ok c => lastLoop d pw toln minS maxS (last - 1) (List.zipWith (· + ·) trunc (c.map fun x => pw |x|))
  termination_by (last + d.n + 1).toNat
  decreasing_by have := Rows.col_ok h; omega

/-- `compute_last_index(d, tol, pow, min_size, max_size)`; `toln = tol^pow`.
(sources/LinearAlgebra.cpp:57-75) -/
def computeLastIndex (d : Rows α) (tol : α) (pw : α → α) (minS maxS : Nat) : Res Int := do
  let c ← d.col ((d.n : Int) - 1)
  lastLoop d pw (pw tol) minS maxS ((d.n : Int) - 1) (c.map fun x => pw |x|)

/-- The loop of `compute_first_index_ascending`. (sources/LinearAlgebra.cpp:36-43) -/
def firstLoop (d : Rows α) (pw : α → α) (tol : α) (minIdx maxIdx : Nat) (first : Nat) (trunc : List α) : Res Nat :=
  if first ≤ minIdx then
    if trunc.any (fun t => decide (tol < t)) ∧ maxIdx ≤ first then .ok first
    else
      match h : d.col ((first : Int) + 1) with
      | .error e => .error e
      | .ok c => firstLoop d pw tol minIdx maxIdx (first + 1) (List.zipWith (· + ·) trunc (c.map fun x => pw |x|))
  else .ok first
  termination_by d.n - first
  decreasing_by have := Rows.col_ok h; omega

/-- `compute_first_index_ascending(d, tol, pow, min_size, max_size)`: the two bounds are unsigned differences,
and `tol` is compared without being raised to `pow`. (sources/LinearAlgebra.cpp:23-45) -/
def computeFirstIndexAscending (d : Rows α) (tol : α) (pw : α → α) (minS maxS : Nat) : Res Nat := do
  let c ← d.col 0
  firstLoop d pw tol (toU64 ((d.n : Int) - minS)) (toU64 ((d.n : Int) - maxS)) 0 (c.map fun x => pw |x|)

/-- `truncate(u, d, v, tol, min_size, max_size, pow)`. (sources/LinearAlgebra.cpp:77-84) -/
def truncate3 (u d v : Rows α) (tol : α) (minS maxS : Nat) (pw : α → α) : Res (Rows α × Rows α × Rows α) := do
  let last ← computeLastIndex d tol pw minS maxS
  return (u.sliceTo (last + 1), d.sliceTo (last + 1), v.sliceTo (last + 1))

/-- `truncate(e, u, tol, min_size, max_size, pow)`, parameters named as in the definition.
(sources/LinearAlgebra.cpp:98-103) -/
def truncate2 (e u : Rows α) (tol : α) (minS maxS : Nat) (pw : α → α) : Res (Rows α × Rows α) := do
  let last ← computeLastIndex e tol pw minS maxS
  return (u.sliceTo (last + 1), e.sliceTo (last + 1))

/-- `truncate(tuple{d, u}, …)`: calls the two argument version with `(u, d)`.
(sources/LinearAlgebra.cpp:87-91) -/
def truncatePair (t : Rows α × Rows α) (tol : α) (minS maxS : Nat) (pw : α → α) : Res (Rows α × Rows α) :=
  truncate2 t.2 t.1 tol minS maxS pw

/-- `eigh(A, split, tol, min_size, max_size, pow)`, given the decomposition `(eigenvalues, eigenvectors)` that
`eigh(A, split)` returned. (sources/LinearAlgebra.cpp:157-160) -/
def eighTruncated (dec : Rows α × Rows α) (tol : α) (minS maxS : Nat) (pw : α → α) : Res (Rows α × Rows α) :=
  truncatePair dec tol minS maxS pw

/-- `svd(A, split, tol, min_size, max_size, pow)`, given the decomposition `(u, d, v)` of `svd(A, split)`.
(sources/LinearAlgebra.cpp:92-96,129-132) -/
def svdTruncated (dec : Rows α × Rows α × Rows α) (tol : α) (minS maxS : Nat) (pw : α → α) :
    Res (Rows α × Rows α × Rows α) :=
  truncate3 dec.1 dec.2.1 dec.2.2 tol minS maxS pw

end LA
end QuantiT
