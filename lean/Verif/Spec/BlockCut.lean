import Verif.Model.BlockCut
import Verif.Spec.BlockTruncate
import Verif.Spec.CutDmrg
import Verif.Spec.SemiCanonical
/-
Which blocks the truncation of a block SVD leaves, and what a DMRG update that truncates should give if the new bond may have unused elements.
-/
namespace QuantiT.Spec
open BT BN
variable {G 𝕜 : Type} [RCLike 𝕜]

/-- No section is without elements. -/
def NoEmpty (sh : Shape G) : Prop := ∀ d ∈ sh, ∀ s ∈ d, 0 < s.1

/-- The truncation of the SVD of `t` removes every block of the sections of which it keeps no value: in the order of the blocks of either
factor no two such blocks are next to each other, and the last block is none (see C40 for what happens otherwise).  If every
section keeps a value there are none. -/
def Tidy [AddCommGroup G] [LinearOrder G] (fac : Blk 𝕜 → Blk 𝕜 × Blk 𝕜 × Blk 𝕜) (eps cutoff : ℝ) (minB maxB : Nat) (t : BT G 𝕜) (split : Nat) : Prop :=
  ∀ u d v thr, svdSplit fac t split = .ok (u, d, v) → keepAbove (mapBlocks RCLike.re d) maxB minB cutoff (fun x => x ^ 2) eps = .ok thr →
    Isolated (fun kb => emptiedIn (mapBlocks RCLike.re d).blocks thr kb.1) u.blocks ∧
      Isolated (fun kb => emptiedIn (mapBlocks RCLike.re d).blocks thr kb.1) v.blocks

/-- The truncated SVD of `t`, if it returns, has the blocks of both factors in order, as every other operation on block tensors needs them.
Blocks of sections of which no value was kept may be left (see C40). -/
def Orderly [AddCommGroup G] [LinearOrder G] (fac : Blk 𝕜 → Blk 𝕜 × Blk 𝕜 × Blk 𝕜) (eps cutoff : ℝ) (minB maxB : Nat) (t : BT G 𝕜) (split : Nat) : Prop :=
  ∀ u d v, svdCutB fac eps t split cutoff minB maxB (fun x => x ^ 2) = .ok (u, d, v) → Sorted u.blocks ∧ Sorted v.blocks

/-- In either factor of the SVD of `t`, the truncation keeps a value of the section of the last block. -/
def LastKept [AddCommGroup G] [LinearOrder G] (fac : Blk 𝕜 → Blk 𝕜 × Blk 𝕜 × Blk 𝕜) (eps cutoff : ℝ) (minB maxB : Nat) (t : BT G 𝕜) (split : Nat) : Prop :=
  ∀ u d v thr, svdSplit fac t split = .ok (u, d, v) → keepAbove (mapBlocks RCLike.re d) maxB minB cutoff (fun x => x ^ 2) eps = .ok thr →
    (∀ kb, u.blocks.getLast? = some kb → emptiedIn (mapBlocks RCLike.re d).blocks thr kb.1 = false) ∧
      ∀ kb, v.blocks.getLast? = some kb → emptiedIn (mapBlocks RCLike.re d).blocks thr kb.1 = false

/-- The truncation of the SVD of `t` keeps a value of every section. -/
def NoneEmptied [AddCommGroup G] [LinearOrder G] (fac : Blk 𝕜 → Blk 𝕜 × Blk 𝕜 × Blk 𝕜) (eps cutoff : ℝ) (minB maxB : Nat) (t : BT G 𝕜) (split : Nat) : Prop :=
  ∀ u d v thr, svdSplit fac t split = .ok (u, d, v) → keepAbove (mapBlocks RCLike.re d) maxB minB cutoff (fun x => x ^ 2) eps = .ok thr →
    ∀ k, emptiedIn (mapBlocks RCLike.re d).blocks thr k = false

/-- The values `lst` of the normalised state `v` at the bond between the sites `o` and `o + 1`, in decreasing order (the Schmidt coefficients of
`v` in the spaces that the rest of the chain `s` spans): the sum of the squares of the first `k` is the largest squared overlap
with `v` of a normalised chain that differs from `s` at these sites only and has a bond of size `k` between them. -/
structure SchmidtValues (ds : List Nat) (v : List Nat → 𝕜) (s : List (Blk 𝕜)) (o : Nat) (lst : List ℝ) : Prop where
  sorted : lst.Pairwise (· ≥ ·)
  nonneg : ∀ x ∈ lst, 0 ≤ x
  total : (lst.map (· ^ 2)).sum = 1
  attained : ∀ k, 1 ≤ k → k ≤ lst.length → ∃ A B, PairFits s o A B k ∧ normSq (withPair s o A B) = 1 ∧
    ‖vecOverlap ds v (withPair s o A B)‖ ^ 2 = ((lst.take k).map (· ^ 2)).sum
  best : ∀ A B k, PairFits s o A B k → normSq (withPair s o A B) = 1 → ‖vecOverlap ds v (withPair s o A B)‖ ^ 2 ≤ ((lst.take k).map (· ^ 2)).sum

/-- Like `Truncation`, counting only the elements of the new bond that are used.  `s'` is the chain `s` with new tensors at the sites `o` and
`o + 1` made by truncating the normalised state `v`.  `w` is the weight lost, `1 - |⟨v|s'⟩|²`; it is at most `cutoff²` unless as
many elements are used as allowed, and zero if fewer than `minB` are used; no other normalised chain that differs from `s` at
these sites only, with a bond not larger than the number of elements used, has a larger overlap with `v`.  There is a
number `K` within the limits such that with a bond smaller than `K`, but not smaller than `minB`, every such chain loses more
than `cutoff²`, while `K` elements are used unless nothing is lost; more than `K` are used only for values of `v` that equal the
`K`th up to the relative precision `2 * eps`.  No more elements are used than two sites can need. -/
structure BlockTruncation (ds : List Nat) (v : List Nat → 𝕜) (s s' : List (Blk 𝕜)) (o : Nat) (eps cutoff : ℝ) (minB maxB : Nat) (w : ℝ) : Prop where
  norm : vecNormSq ds v = 1
  pair : ∃ A B, s' = withPair s o A B ∧ PairFits s o A B (bondAt s' o)
  needed : ∀ A B, s[o]? = some A → s[o + 1]? = some B → usedBond s' o ≤ min (A.dims.take 2).prod (B.dims.drop 1).prod
  some : 1 ≤ usedBond s' o
  lost : 0 ≤ w ∧ w < 1 ∧ ‖vecOverlap ds v s'‖ ^ 2 = 1 - w
  small : usedBond s' o < maxB → w ≤ cutoff ^ 2
  enough : usedBond s' o < minB → w = 0
  best : ∀ A B k, PairFits s o A B k → k ≤ usedBond s' o → normSq (withPair s o A B) = 1 → ‖vecOverlap ds v (withPair s o A B)‖ ^ 2 ≤ 1 - w
  fewest : ∃ K, 1 ≤ K ∧ K ≤ max minB maxB ∧ (usedBond s' o < K → w = 0) ∧
    (∀ A B k, PairFits s o A B k → minB ≤ k → k < K → normSq (withPair s o A B) = 1 → ‖vecOverlap ds v (withPair s o A B)‖ ^ 2 < 1 - cutoff ^ 2) ∧
    ∃ lst, SchmidtValues ds v s o lst ∧ open Classical in usedBond s' o = (lst.filter fun x => decide ((1 - 2 * eps) * lst.getD (K - 1) 0 < x)).length

end QuantiT.Spec
