import Verif.Model.Quantity
/-
What the conserved quantities are supposed to be, stated on the integers returned by `get_val()`.
-/
namespace QuantiT.Spec

/-- The admissible stored values of a simple group type: ℤ kept in 16 bits, or residues `0..N-1`.
Cycle lengths above 32768 are excluded: the code is wrong there (see `C01_cyclic_group_fails`). -/
def CompValid : Comp → Prop
  | .z q => -32768 ≤ q.val ∧ q.val ≤ 32767
  | .c N q => 0 < N ∧ N ≤ 32768 ∧ q.val < N

/-- A composite quantity all of whose components are admissible. -/
def QValid (q : Quantity) : Prop := ∀ x ∈ q, CompValid x

/-- The abstract group operation on stored values: addition modulo 2^16 (balanced) or modulo N. -/
def compose : GrpType → Int → Int → Int
  | .z, u, v => Int.bmod (u + v) 65536
  | .c N, u, v => (u + v) % N

/-- The abstract inverse on stored values. -/
def invert : GrpType → Int → Int
  | .z, u => Int.bmod (-u) 65536
  | .c N, u => (-u) % N

/-- Lexicographic order on lists of integers. -/
def lexLt : List Int → List Int → Prop
  | x :: xs, y :: ys => x < y ∨ (x = y ∧ lexLt xs ys)
  | _, _ => False

end QuantiT.Spec
