import Verif.Spec.BTensor
import Mathlib.Algebra.BigOperators.Group.List.Basic
import Mathlib.Algebra.Order.Ring.Int
/-
Choosing one physical state per site.
-/
namespace QuantiT.Spec
variable {G : Type}

/-- The charges chosen by a string: one position per site, each among the charges of its site. -/
def chosen : List (List G) → List Nat → Option (List G)
  | [], [] => some []
  | a :: phys, o :: out =>
    match a[o]?, chosen phys out with
    | some q, some qs => some (q :: qs)
    | _, _ => none
  | _, _ => none

/-- The string picks an existing state on every site and their charges compose to `total`. -/
def HasTotal [AddCommMonoid G] (phys : List (List G)) (out : List Nat) (total : G) : Prop :=
  ∃ qs, chosen phys out = some qs ∧ qs.sum = total

/-- `distance2` as C05 describes it: never negative, and zero exactly for equal charges. -/
structure IsDist (dist : G → G → Int) : Prop where
  nonneg : ∀ a b, 0 ≤ dist a b
  zero : ∀ a b, dist a b = 0 ↔ a = b

/-- The charges of a site are `lo, lo + s, …, lo + m s`, in any order. -/
def Progression (s : ℤ) (a : List ℤ) : Prop :=
  ∃ (lo : ℤ) (m : Nat), ∀ x, x ∈ a ↔ ∃ k : Nat, k ≤ m ∧ x = lo + k * s

/-- A chain of block tensors with the given physical dimensions, total charge and inner bond dimension: the ends have
one neutral element, the first site carries the total charge and the others none, and every inner bond has equal section
sizes, none of them zero, and opposite charges on its two sides. -/
structure BlockChain {R : Type} [AddCommGroup G] (dims : List (Dim G)) (total : G) (bond : Nat)
    (sites : List (Shape G × G × List (List Nat × Blk R))) : Prop where
  length : sites.length = dims.length
  site : ∀ (i : Nat) t, sites[i]? = some t → ∃ (l d r : Dim G), dims[i]? = some d ∧ t.1 = [l, d, r] ∧
    (i = 0 → l = [(1, 0)]) ∧ (i + 1 = dims.length → r = [(1, 0)]) ∧
    t.2.1 = (if i = 0 then total else 0) ∧ Conserving t.1 t.2.1 t.2.2
  bonds : ∀ (i : Nat) t t', sites[i]? = some t → sites[i + 1]? = some t' → ∃ r : Dim G, t.1[2]? = some r ∧
    t'.1[0]? = some (r.map fun s => (s.1, -s.2)) ∧ dimSize r = bond ∧ ∀ s ∈ r, 0 < s.1

/-- Along the sections `β` of the bonds, the string `o` of physical sections meets an allowed block at each site. -/
def AllowedPath {R : Type} [AddCommGroup G] (sites : List (Shape G × G × List (List Nat × Blk R))) (o : List Nat)
    (β : Nat → Nat) : Prop :=
  o.length = sites.length ∧
  ∀ (i : Nat) t s, sites[i]? = some t → o[i]? = some s → Allowed t.1 t.2.1 [β i, s, β (i + 1)]

end QuantiT.Spec
