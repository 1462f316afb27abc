import Verif.Spec.BTensor
import Verif.Spec.Truncate
/-
Cutting down the last dimension of block tensors according to the values of a vector.
-/
namespace QuantiT.Spec
variable {G R α : Type}

/-- The values of a block tensor of one dimension that are in stored blocks, block after block. -/
def vectorValues (blocks : List (List Nat × Blk α)) : List α :=
  blocks.flatMap fun kb => (List.range (kb.2.dims.getD 0 0)).map fun i => kb.2.f [i]

/-- The values of every block are in decreasing order. -/
def Descending [LE α] (blocks : List (List Nat × Blk α)) : Prop :=
  ∀ kb ∈ blocks, ∀ i j, i ≤ j → j < kb.2.dims.getD 0 0 → kb.2.f [j] ≤ kb.2.f [i]

/-- How many values of the block of section `j` are greater than `thr`; `none` if there is no such block. -/
def above [LinearOrder α] (blocks : List (List Nat × Blk α)) (thr : α) (j : Nat) : Option Nat :=
  (lookup blocks [j]).map fun b => ((List.range (b.dims.getD 0 0)).filter fun i => decide (thr < b.f [i])).length

/-- Size of a section of which so many values are kept; a section that keeps no value does not shrink. -/
def newSize : Option Nat → Nat → Nat
  | some (n + 1), _ => n + 1
  | _, old => old

/-- A dimension of which `keep j` elements of section `j` are kept. -/
def resized (keep : Nat → Option Nat) (r : Dim G) : Dim G := r.mapIdx fun j s => (newSize (keep j) s.1, s.2)

/-- `b'` is the first `n` columns of `b`. -/
def FirstCols (n : Nat) (b b' : Blk R) : Prop :=
  b'.dims = b.dims.dropLast ++ [n] ∧ ∀ o, InRange o b'.dims → b'.f o = b.f o

/-- A block index belongs to a section of which a block is stored but no value is kept. -/
def emptiedIn [LinearOrder α] (blocks : List (List Nat × Blk α)) (thr : α) (k : List Nat) : Bool :=
  decide (k.getLast?.bind (above blocks thr) = some 0)

/-- In a list no two neighbours are marked, nor is the last. -/
def Isolated {β : Type} (bad : β → Bool) : List β → Prop
  | [] => True
  | x :: r => (bad x → ∃ y r', r = y :: r' ∧ bad y = false) ∧ Isolated bad r

/-- A tensor whose blocks are those of a conserving tensor, but may be out of order: the block indices are different, every
stored block is at an allowed index and has the size given by its sections. -/
structure Stored [AddCommMonoid G] (shape : Shape G) (rule : G) (blocks : List (List Nat × Blk R)) : Prop where
  distinct : (blocks.map Prod.fst).Nodup
  block : ∀ k b, (k, b) ∈ blocks →
    ∃ secs, sections shape k = some secs ∧ charge secs = rule ∧ b.dims = secs.map Prod.fst

/-- A dense SVD returns the singular values of every matrix of the batch in decreasing order. -/
def SvdDescending [LE R] (fac : Blk R → Blk R × Blk R × Blk R) : Prop :=
  ∀ m ld nr nc, m.dims = ld ++ [nr, nc] → ∀ e i j, InRange e ld → i ≤ j → j < min nr nc →
    (fac m).2.1.f (e ++ [j]) ≤ (fac m).2.1.f (e ++ [i])

end QuantiT.Spec
