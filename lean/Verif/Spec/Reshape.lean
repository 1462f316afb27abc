import Verif.Spec.BTensor
/-
What regrouping the dimensions of a block tensor means.
-/
namespace QuantiT.Spec
variable {G R : Type}

/-- Position of a multi-index in row-major order (the last component varies fastest). -/
def rowMajor (dims idx : List Nat) : Nat := (dims.zip idx).foldl (fun acc ni => acc * ni.1 + ni.2) 0

/-- Several dimensions seen as one: one section per choice of a section in each, in row-major order; sizes
multiply and charges compose. -/
def fuse [AddCommMonoid G] (ds : Shape G) : Dim G :=
  (indices (ds.map List.length)).map fun j =>
    match sections ds j with
    | some s => ((s.map Prod.fst).prod, charge s)
    | none => (0, 0)

/-- Element `x` of the fused dimension is the element `e` of the separate dimensions: row-major position among
the sections, and row-major position within the section. -/
def FusedIndex [AddCommMonoid G] (ds : Shape G) (e : List Nat) (x : Nat) : Prop :=
  ∃ b o s, locateAll ds e = some (b, o) ∧ sections ds b = some s ∧
    locate (fuse ds) x = some (rowMajor (ds.map List.length) b, rowMajor (s.map Prod.fst) o)

/-- The same for a list of groups of dimensions: one component of `x` per group. -/
def FusedIndices [AddCommMonoid G] : List (Shape G) → List Nat → List Nat → Prop
  | [], e, x => e = [] ∧ x = []
  | g :: gs, e, x => ∃ e1 e2 y ys, e = e1 ++ e2 ∧ x = y :: ys ∧ FusedIndex g e1 y ∧ FusedIndices gs e2 ys

/-- Two grids of sections have the same number of blocks, and blocks at the same row-major position have the
same number of elements. -/
def SameVolumes (sh sh' : Shape G) : Prop :=
  (sh.map List.length).prod = (sh'.map List.length).prod ∧
  ∀ b b' s s', sections sh b = some s → sections sh' b' = some s' →
    rowMajor (sh.map List.length) b = rowMajor (sh'.map List.length) b' →
    (s.map Prod.fst).prod = (s'.map Prod.fst).prod

/-- Blocks at the same row-major position have the same total charge. -/
def SameCharges [AddCommMonoid G] (sh sh' : Shape G) : Prop :=
  ∀ b b' s s', sections sh b = some s → sections sh' b' = some s' →
    rowMajor (sh.map List.length) b = rowMajor (sh'.map List.length) b' → charge s = charge s'

/-- Elements `e` and `e'` are at the same row-major position within blocks at the same row-major position. -/
def Aligned (sh sh' : Shape G) (e e' : List Nat) : Prop :=
  ∃ b o s b' o' s', locateAll sh e = some (b, o) ∧ sections sh b = some s ∧
    locateAll sh' e' = some (b', o') ∧ sections sh' b' = some s' ∧
    rowMajor (sh.map List.length) b = rowMajor (sh'.map List.length) b' ∧
    rowMajor (s.map Prod.fst) o = rowMajor (s'.map Prod.fst) o'

/-- Every dimension has a section. -/
def Populated (sh : Shape G) : Prop := ∀ d ∈ sh, d ≠ []

end QuantiT.Spec

namespace QuantiT.Spec
/-- Where to cut a list of dimensions to get the given groups: before each group but the first, the number of
dimensions so far. -/
def groupCuts {G : Type} (gss : List (Shape G)) : List Nat :=
  (List.range (gss.length - 1)).map fun i => ((gss.take (i + 1)).map List.length).sum
end QuantiT.Spec
