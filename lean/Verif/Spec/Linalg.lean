import Verif.Spec.BTensor
import Mathlib.Algebra.BigOperators.Group.Finset.Basic
import Mathlib.Algebra.Star.Basic
/-
Dense matrices made of the blocks of a block tensor.
-/
namespace QuantiT.Spec
variable {G : Type}

/-- Ranges of positions (section, first, past the last) of some different sections of a dimension that fill `0, …, n - 1`:
each range is as long as its section, and every position is in exactly one range. -/
structure Tiles (d : Dim G) (n : Nat) (spans : List (Nat × Nat × Nat)) : Prop where
  nodup : (spans.map Prod.fst).Nodup
  size : ∀ s ∈ spans, ∃ x, d[s.1]? = some x ∧ s.2.2 = s.2.1 + x.1 ∧ s.2.2 ≤ n
  cover : ∀ p < n, ∃ s ∈ spans, s.2.1 ≤ p ∧ p < s.2.2
  disjoint : ∀ s ∈ spans, ∀ s' ∈ spans, ∀ p, s.2.1 ≤ p → p < s.2.2 → s'.2.1 ≤ p → p < s'.2.2 → s = s'

/-- A stored block index has its row section among `rows` and its column section among `cols`, and the remaining components
are `other`. -/
def Holds (other : List Nat) (rows cols : List (Nat × Nat × Nat)) (k : List Nat) : Prop :=
  ∃ s ∈ rows, ∃ s' ∈ cols, k = other ++ [s.1, s'.1]

/-- `m` holds exactly the blocks of a tensor of shape `lead ++ [dr, dc]` with the indices `other` in the dimensions of `lead`,
row sections of charge `p` and column sections of charge `q`; `secs` are the sections of `other`. -/
structure Collected {R : Type} [Zero R] (lead : Shape G) (dr dc : Dim G) (blocks : List (List Nat × Blk R)) (m : Blk R)
    (other : List Nat) (rows cols : List (Nat × Nat × Nat)) (secs : List (Nat × G)) (nr nc : Nat) (p q : G) : Prop where
  leads : sections lead other = some secs
  dims : m.dims = secs.map Prod.fst ++ [nr, nc]
  rowTiles : Tiles dr nr rows
  colTiles : Tiles dc nc cols
  /-- all rows have charge `p` -/
  rowCharge : ∀ s ∈ rows, ∃ n, dr[s.1]? = some (n, p)
  /-- all columns have charge `q` -/
  colCharge : ∀ s ∈ cols, ∃ n, dc[s.1]? = some (n, q)
  nonempty : rows ≠ [] ∧ cols ≠ []
  /-- rows are stacked in the order of their sections -/
  rowOrder : rows.Pairwise fun s s' => s.1 < s'.1 ∧ s.2.2 ≤ s'.2.1
  /-- so are the columns if no block is missing; otherwise they are in the order in which they are met -/
  colOrder : (∀ s ∈ rows, ∀ s' ∈ cols, lookup blocks (other ++ [s.1, s'.1]) ≠ none) →
    cols.Pairwise fun s s' => s.1 < s'.1 ∧ s.2.2 ≤ s'.2.1
  /-- no empty block row -/
  usedRow : ∀ s ∈ rows, ∃ s' ∈ cols, lookup blocks (other ++ [s.1, s'.1]) ≠ none
  /-- no empty block column -/
  usedCol : ∀ s' ∈ cols, ∃ s ∈ rows, lookup blocks (other ++ [s.1, s'.1]) ≠ none
  /-- no block is missing -/
  full : ∀ i j b n n', (other ++ [i, j], b) ∈ blocks → dr[i]? = some (n, p) → dc[j]? = some (n', q) →
    Holds other rows cols (other ++ [i, j])
  /-- inside the ranges of a row and of a column is the stored block, or zero -/
  value : ∀ e, InRange e (secs.map Prod.fst) → ∀ s ∈ rows, ∀ s' ∈ cols, ∀ r c, s.2.1 ≤ r → r < s.2.2 → s'.2.1 ≤ c → c < s'.2.2 →
    m.f (e ++ [r, c]) = match lookup blocks (other ++ [s.1, s'.1]) with
      | none => 0
      | some b => b.f (e ++ [r - s.2.1, c - s'.2.1])

end QuantiT.Spec

namespace QuantiT.Spec
variable {R : Type}

/-- A factorisation of batches of matrices (the last two dimensions) returns tensors of the sizes of a reduced singular value
decomposition. -/
def SvdSizes (fac : Blk R → Blk R × Blk R × Blk R) : Prop :=
  ∀ m ld nr nc, m.dims = ld ++ [nr, nc] → (fac m).1.dims = ld ++ [nr, min nr nc] ∧ (fac m).2.1.dims = ld ++ [min nr nc] ∧
    (fac m).2.2.dims = ld ++ [nc, min nr nc]

/-- The shape with every charge replaced by the neutral one. -/
def neutralised {G : Type} [Zero G] (sh : Shape G) : Shape G := sh.map (List.map fun s => (s.1, 0))

end QuantiT.Spec

namespace QuantiT.Spec
open Finset
variable {R : Type} [Semiring R] [StarRing R]

/-- `m = u · diag d · v†` for every matrix of the batch. -/
def SvdProduct (fac : Blk R → Blk R × Blk R × Blk R) : Prop :=
  ∀ m ld nr nc, m.dims = ld ++ [nr, nc] → ∀ e r c, InRange e ld → r < nr → c < nc →
    m.f (e ++ [r, c]) = ∑ k ∈ range (min nr nc), (fac m).1.f (e ++ [r, k]) * (fac m).2.1.f (e ++ [k]) * star ((fac m).2.2.f (e ++ [c, k]))

/-- The columns of `u` and of `v` are orthonormal, for every matrix of the batch. -/
def SvdOrtho (fac : Blk R → Blk R × Blk R × Blk R) : Prop :=
  ∀ m ld nr nc, m.dims = ld ++ [nr, nc] → ∀ e a b, InRange e ld → a < min nr nc → b < min nr nc →
    (∑ r ∈ range nr, star ((fac m).1.f (e ++ [r, a])) * (fac m).1.f (e ++ [r, b]) = if a = b then 1 else 0) ∧
    (∑ c ∈ range nc, star ((fac m).2.2.f (e ++ [c, a])) * (fac m).2.2.f (e ++ [c, b]) = if a = b then 1 else 0)

/-- The singular values are real. -/
def SvdReal (fac : Blk R → Blk R × Blk R × Blk R) : Prop :=
  ∀ m ld nr nc, m.dims = ld ++ [nr, nc] → ∀ e k, InRange e ld → k < min nr nc →
    star ((fac m).2.1.f (e ++ [k])) = (fac m).2.1.f (e ++ [k])

/-- A batch of matrices that equal their conjugate transpose. -/
def HermitianBlk (m : Blk R) (ld : List Nat) (n : Nat) : Prop :=
  ∀ e r c, InRange e ld → r < n → c < n → m.f (e ++ [r, c]) = star (m.f (e ++ [c, r]))

/-- A dense solver for the eigenvectors `(d, u)` of hermitian matrices returns the sizes of square matrices. -/
def EighSizes (fac : Blk R → Blk R × Blk R) : Prop :=
  ∀ m ld n, m.dims = ld ++ [n, n] → (fac m).1.dims = ld ++ [n] ∧ (fac m).2.dims = ld ++ [n, n]

/-- `m = u · diag d · u†` for every hermitian matrix of a batch. -/
def EighProduct (fac : Blk R → Blk R × Blk R) : Prop :=
  ∀ m ld n, m.dims = ld ++ [n, n] → HermitianBlk m ld n → ∀ e r c, InRange e ld → r < n → c < n →
    m.f (e ++ [r, c]) = ∑ k ∈ range n, (fac m).2.f (e ++ [r, k]) * (fac m).1.f (e ++ [k]) * star ((fac m).2.f (e ++ [c, k]))

/-- The columns of `u` are orthonormal. -/
def EighOrtho (fac : Blk R → Blk R × Blk R) : Prop :=
  ∀ m ld n, m.dims = ld ++ [n, n] → HermitianBlk m ld n → ∀ e a b, InRange e ld → a < n → b < n →
    ∑ r ∈ range n, star ((fac m).2.f (e ++ [r, a])) * (fac m).2.f (e ++ [r, b]) = if a = b then 1 else 0

end QuantiT.Spec
