import Verif.Spec.FlatMap
import Mathlib.Data.List.Lex
import Mathlib.Algebra.BigOperators.Group.List.Basic
/-
What a block sparse tensor with a conservation law stands for.

A dimension is a list of sections, each with a size and a charge in an abelian group `G`.  A block index
picks one section per dimension.  The dense entry at a multi-index is found by locating each component in
its dimension (section, offset within the section) and looking in the stored block, if any.
-/
namespace QuantiT

/-- A dense tensor (a `torch::Tensor` as a value): sizes and entries.  Only the entries at indices inside
`dims` are meaningful.  Floating point is replaced by an arbitrary coefficient type. -/
structure Blk (R : Type) where
  dims : List Nat
  f : List Nat → R

/-- The sections of one dimension: sizes and charges. -/
abbrev Dim (G : Type) := List (Nat × G)
/-- The sections of every dimension. -/
abbrev Shape (G : Type) := List (Dim G)

/-- Block indices are compared lexicographically (`flat_map`'s default comparator on `std::vector`); this
is Mathlib's order with the usual decidable equality of lists. -/
@[reducible] instance (priority := 2000) keyOrder : LinearOrder (List Nat) :=
  { (inferInstance : LinearOrder (List Nat)) with
    toDecidableEq := instDecidableEqList
    compare_eq_compareOfLessAndEq := fun a b => by
      rw [LinearOrder.compare_eq_compareOfLessAndEq]; congr }

namespace Spec
variable {G R : Type}

/-- `idx` is a valid multi-index for sizes `dims`: same length, every component in range. -/
def InRange (idx dims : List Nat) : Prop := List.Forall₂ (· < ·) idx dims

/-- The section of every dimension selected by a block index; `none` when the index has the wrong length
or a component beyond the sections. -/
def sections : Shape G → List Nat → Option (List (Nat × G))
  | [], [] => some []
  | d :: ds, b :: bs =>
    match d[b]?, sections ds bs with
    | some s, some r => some (s :: r)
    | _, _ => none
  | _, _ => none

/-- Total charge of some sections. -/
def charge [AddCommMonoid G] (secs : List (Nat × G)) : G := (secs.map Prod.snd).sum

/-- Block index `b` exists in the grid and its charges compose to the selection rule. -/
def Allowed [AddCommMonoid G] (shape : Shape G) (rule : G) (b : List Nat) : Prop :=
  ∃ secs, sections shape b = some secs ∧ charge secs = rule

instance [AddCommMonoid G] [DecidableEq G] (shape : Shape G) (rule : G) (b : List Nat) :
    Decidable (Allowed shape rule b) :=
  match h : sections shape b with
  | none => isFalse fun ⟨_, h1, _⟩ => by rw [h] at h1; cases h1
  | some s =>
    if hc : charge s = rule then isTrue ⟨s, h, hc⟩
    else isFalse fun ⟨s', h1, h2⟩ => by rw [h] at h1; cases h1; exact hc h2

/-- Number of elements along a dimension. -/
def dimSize (d : Dim G) : Nat := (d.map Prod.fst).sum

/-- Where element `e` of a dimension lives: section and offset. -/
def locate : Dim G → Nat → Option (Nat × Nat)
  | [], _ => none
  | s :: d, e => if e < s.1 then some (0, e) else (locate d (e - s.1)).map fun p => (p.1 + 1, p.2)

/-- Where a multi-index lives: block index and multi-index within the block. -/
def locateAll : Shape G → List Nat → Option (List Nat × List Nat)
  | [], [] => some ([], [])
  | d :: ds, e :: es =>
    match locate d e, locateAll ds es with
    | some p, some q => some (p.1 :: q.1, p.2 :: q.2)
    | _, _ => none
  | _, _ => none

/-- Dense entry of a block tensor at multi-index `e`: zero where no block is stored. -/
def entry [Zero R] (shape : Shape G) (blocks : List (List Nat × Blk R)) (e : List Nat) : R :=
  match locateAll shape e with
  | none => 0
  | some p =>
    match lookup blocks p.1 with
    | none => 0
    | some b => b.f p.2

/-- A well formed conserving tensor: keys strictly sorted, every stored block at an allowed index and of
the size given by its sections. -/
structure Conserving [AddCommMonoid G] (shape : Shape G) (rule : G) (blocks : List (List Nat × Blk R)) : Prop where
  sorted : Sorted blocks
  block : ∀ k b, (k, b) ∈ blocks →
    ∃ secs, sections shape k = some secs ∧ charge secs = rule ∧ b.dims = secs.map Prod.fst

end Spec
end QuantiT

namespace QuantiT
namespace Spec
variable {G R : Type}

/-- Pick the components of `l` listed in `p`; `none` if one does not exist. -/
def gather {α : Type} (p : List Nat) (l : List α) : Option (List α) := p.mapM (fun j => l[j]?)

/-- Same sizes, and same entries at every index inside them. -/
def SameBlk (a b : Blk R) : Prop := a.dims = b.dims ∧ ∀ o, InRange o a.dims → a.f o = b.f o

/-- Same stored block indices with the same content. -/
def SameBlocks (m m' : List (List Nat × Blk R)) : Prop :=
  List.Forall₂ (fun x y => x.1 = y.1 ∧ SameBlk x.2 y.2) m m'

end Spec
end QuantiT

namespace QuantiT
namespace Spec

/-- The dimensions of a tensor of the given rank that are not listed, in order. -/
def others (dims : List Nat) (rank : Nat) : List Nat := (List.range rank).filter (fun j => decide (j ∉ dims))

/-- The multi-index that has the components `inner` at the listed dimensions and the components `outer` at the
other dimensions, in order. -/
def place (dims outer inner : List Nat) : List Nat :=
  (List.range (outer.length + inner.length)).map fun j =>
    if j ∈ dims then inner.getD (dims.idxOf j) 0 else outer.getD (others dims j).length 0

/-- Two lists of contracted dimensions fit: section by section, equal sizes and opposite charges. -/
def Contractible {G : Type} [AddCommMonoid G] (c c' : Shape G) : Prop :=
  List.Forall₂ (List.Forall₂ fun s s' => s.1 = s'.1 ∧ s.2 + s'.2 = 0) c c'

/-- All multi-indices of the given sizes. -/
def indices : List Nat → List (List Nat)
  | [] => [[]]
  | n :: ns => (List.range n).flatMap fun i => (indices ns).map (i :: ·)

end Spec
end QuantiT
