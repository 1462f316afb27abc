import Verif.Model.BlockNetwork
import Verif.Model.Linalg
import Verif.Model.Broadcast
/-
Model of `bMPS::move_oc`, MPT.cpp:75-111.  Same simplifications as Model/BTensor.lean; `fuel` as in Model/BlockNetwork.lean.
-/
namespace QuantiT
namespace BN
open Spec BT
variable {G R : Type}

/-- A block MPS: tensors and `orthogonality_center`, MPT.h:518-619. -/
structure BMPS (G R : Type) where
  sites : List (BT G R)
  oc : Nat

/-- One turn of the first loop of `bMPS::move_oc`, MPT.cpp:80-94: the center moves from `oc` to `oc - 1`.  `fac` stands for
the singular value decomposition of dense batches of matrices by torch, `c` for the complex conjugation of coefficients. -/
def moveLeft [AddCommGroup G] [LinearOrder G] [Semiring R] (fuel : Nat) (c : R → R) (fac : Blk R → Blk R × Blk R × Blk R)
    (m : BMPS G R) : Option (Res (BMPS G R)) :=
  andThen (some (orUb m.sites[m.oc]?)) fun curr =>
  andThen (some (orUb m.sites[m.oc - 1]?)) fun next =>
  andThen (some (svdSplit fac curr 1)) fun udv =>
  andThen (some (permute (conj c udv.2.2) [2, 0, 1])) fun curr' =>
  andThen (some (mul udv.1 udv.2.1)) fun ud =>
  andThen (tensordot fuel next ud [2] [0]) fun next' =>
  some (.ok ⟨(m.sites.set m.oc curr').set (m.oc - 1) next', m.oc - 1⟩)

/-- One turn of the second loop of `bMPS::move_oc`, MPT.cpp:96-109: the center moves from `oc` to `oc + 1`. -/
def moveRight [AddCommGroup G] [LinearOrder G] [Semiring R] (fuel : Nat) (c : R → R) (fac : Blk R → Blk R × Blk R × Blk R)
    (m : BMPS G R) : Option (Res (BMPS G R)) :=
  andThen (some (orUb m.sites[m.oc]?)) fun curr =>
  andThen (some (orUb m.sites[m.oc + 1]?)) fun next =>
  andThen (some (svdSplit fac curr 2)) fun udv =>
  andThen (some (mul udv.2.2 udv.2.1)) fun vd =>
  andThen (tensordot fuel (conj c vd) next [0] [0]) fun next' =>
  some (.ok ⟨(m.sites.set m.oc udv.1).set (m.oc + 1) next', m.oc + 1⟩)

/-- `n` turns of the first loop. -/
def movesLeft [AddCommGroup G] [LinearOrder G] [Semiring R] (fuel : Nat) (c : R → R) (fac : Blk R → Blk R × Blk R × Blk R) :
    Nat → BMPS G R → Option (Res (BMPS G R))
  | 0, m => some (.ok m)
  | n + 1, m => andThen (moveLeft fuel c fac m) fun m => movesLeft fuel c fac n m

/-- `n` turns of the second loop. -/
def movesRight [AddCommGroup G] [LinearOrder G] [Semiring R] (fuel : Nat) (c : R → R) (fac : Blk R → Blk R × Blk R × Blk R) :
    Nat → BMPS G R → Option (Res (BMPS G R))
  | 0, m => some (.ok m)
  | n + 1, m => andThen (moveRight fuel c fac m) fun m => movesRight fuel c fac n m

/-- `bMPS::move_oc(int i)`, MPT.cpp:75-111.  The loop conditions compare `i` and the center as unsigned integers, which
agrees with the integers since `i` is not negative. -/
def moveOcB [AddCommGroup G] [LinearOrder G] [Semiring R] (fuel : Nat) (c : R → R) (fac : Blk R → Blk R × Blk R × Blk R)
    (m : BMPS G R) (i : Int) : Option (Res (BMPS G R)) :=
  if ¬ (0 ≤ i ∧ i < m.sites.length) then some (Res.throw .invalidArgument)
  else
    andThen (movesLeft fuel c fac (m.oc - i.toNat) m) fun m =>
    movesRight fuel c fac (i.toNat - m.oc) m

end BN
end QuantiT
