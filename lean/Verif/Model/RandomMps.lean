import Verif.Model.Mps
import Verif.Model.View
import Mathlib.Data.List.Sort
import Mathlib.Data.List.Lex
/-
Model of the random block MPS of MPT.cpp:294-533.

Charges are an abelian group (see Model/BTensor.lean), ordered as `any_quantity` is (an order with no relation to the
group operation).  `dist` stands for `distance2`.  A random number generator is a function of the position: the number
drawn from `0..x-1` is `ρ i % x`, which is any number of that range as `ρ` varies.
-/
namespace QuantiT
namespace RM
variable {G R : Type}

/-! ### `generate_random_string` -/
section
variable [AddCommGroup G]

/-- The first loop, MPT.cpp:321-333: the random start and its total.  A uniform distribution over no element is
undefined behaviour. -/
def draw : List (List G) → (Nat → Nat) → G → Res (List Nat × G)
  | [], _, sum => .ok ([], sum)
  | a :: rest, ρ, sum => do
    if a.length = 0 then Res.ub
    else
      let r := ρ 0 % a.length
      let q ← BT.orUb a[r]?
      let (out, sum) ← draw rest (fun i => ρ (i + 1)) (sum + q)
      .ok (r :: out, sum)

/-- The candidates of one site, MPT.cpp:348-360: the new choice and the smallest distance so far. -/
def candidates (dist : G → G → Int) (constraint sum : G) : List G → Nat → Nat × Int → Nat × Int
  | [], _, st => st
  | q :: qs, j, st =>
    let d := dist (sum + q) constraint
    candidates dist constraint sum qs (j + 1) (if d < st.2 then (j, d) else st)

/-- One site of a pass, MPT.cpp:344-363. -/
def adjust (dist : G → G → Int) (constraint : G) (a : List G) (o : Nat) (sum : G) (curr : Int) :
    Res (Nat × G × Int) := do
  let q ← BT.orUb a[o]?
  let sum := sum + -q
  let (o, curr) := candidates dist constraint sum a 0 (o, curr)
  let q ← BT.orUb a[o]?
  .ok (o, sum + q, curr)

/-- One pass over the sites, MPT.cpp:338-364; at distance zero the rest of the string is left as it is. -/
def pass (dist : G → G → Int) (constraint : G) : List (List G) → List Nat → G → Int → Res (List Nat × G × Int)
  | a :: phys, o :: out, sum, curr =>
    if curr = 0 then .ok (o :: out, sum, curr)
    else do
      let (o, sum, curr) ← adjust dist constraint a o sum curr
      let (out, sum, curr) ← pass dist constraint phys out sum curr
      .ok (o :: out, sum, curr)
  | _, out, sum, curr => .ok (out, sum, curr)

/-- The loop over the passes, MPT.cpp:336-370. -/
def passes (dist : G → G → Int) (constraint : G) (phys : List (List G)) : Nat → List Nat → G → Int → Res (List Nat)
  | 0, _, _, _ => Res.throw .invalidArgument
  | n + 1, out, sum, curr => do
    let (out, sum, curr) ← pass dist constraint phys out sum curr
    if curr = 0 then .ok out else passes dist constraint phys n out sum curr

/-- `generate_random_string`, MPT.cpp:311-371. -/
def generate (dist : G → G → Int) (phys : List (List G)) (constraint : G) (nPass : Nat) (ρ : Nat → Nat) :
    Res (List Nat) := do
  if nPass < 1 then Res.throw .invalidArgument
  else
    let (out, sum) ← draw phys ρ 0
    passes dist constraint phys nPass out sum (dist sum constraint)

end

/-! ### Bonds -/
section
variable [AddCommGroup G] [LinearOrder G]

/-- Number of sectors of a sorted list, MPT.cpp:398-403; the end of an empty list has no predecessor. -/
def sectors : List G → Res Nat
  | [] => Res.ub
  | [_] => .ok 1
  | x :: y :: r => do
    let n ← sectors (y :: r)
    .ok (n + if x ≠ y then 1 else 0)

/-- The loop that fills the sections, MPT.cpp:406-419. -/
def fillSectors : List G → Nat → Nat → List (Nat × G) → Res (List (Nat × G))
  | [], _, _, arr => .ok arr
  | x :: r, sz, ix, arr =>
    if r.head? ≠ some x then
      if ix < arr.length then fillSectors r 0 (ix + 1) (arr.set ix (sz + 1, x)) else Res.ub
    else fillSectors r (sz + 1) ix arr

/-- The charges after one more site, MPT.cpp:391-394. -/
def accumulate (cvals : List G) (i : Nat) (strings : List (List Nat)) (accum : List G) : Res (List G) :=
  (strings.zip accum).mapM fun oa => do
    let o ← BT.orUb oa.1[i]?
    let q ← BT.orUb cvals[o]?
    .ok (oa.2 + -q)

/-- `make_right_side`, MPT.cpp:387-421: the tensor and the new charges. -/
def makeRightSide (strings : List (List Nat)) (accum : List G) (rule : G) (cvals : List G) (i : Nat) :
    Res (BT G R × List G) := do
  let accum ← accumulate cvals i strings accum
  let L := accum.insertionSort (· ≤ ·)
  let n ← sectors L
  let q ← BT.orUb cvals[0]?
  let d ← fillSectors L 0 0 (List.replicate n (0, q))
  .ok (⟨[d], rule, []⟩, accum)

/-- `get_cvals()` of the tensor that describes a physical index. -/
def cvalsOf (p : BT G R) : List G := (p.shape.flatten).map Prod.snd

/-- `rand_like(shape)`, btensor.cpp:2399-2404: the loop is given as many rounds as there are block indices. -/
def randLike [Zero R] (fac : List Nat → List Nat → List Nat → R) (t : BT G R) : Res (BT G R) :=
  match BT.factoryWrap fac (BT.secCounts t.shape).prod (BT.sparseZeros t.shape t.rule) with
  | none => Res.ub
  | some r => r

/-- The loop over the sites, MPT.cpp:445-455.  The division of each tensor by its norm is not modelled. -/
def siteLoop [Zero R] (fac : Nat → List Nat → List Nat → List Nat → R) (constraint : G) (strings : List (List Nat)) :
    Nat → List (BT G R) → BT G R → List G → Res (List (BT G R))
  | _, [], _, _ => .ok []
  | i, p :: ps, left, accum => do
    let (right, accum) ← makeRightSide strings accum (if i = 0 then constraint else 0) (cvalsOf p) i
    let sh ← BT.shapeFromList [left, p, right]
    let out ← randLike (fac i) sh
    let right ← (if i = 0 then BT.setRule right 0 else .ok right : Res (BT G R))
    let rest ← siteLoop fac constraint strings (i + 1) ps (BT.inverseCvals right) accum
    .ok (out :: rest)

/-- `random_bMPS_impl`, MPT.cpp:423-462.  `ρ j` are the numbers drawn for string `j`, `fac i` the random entries of site
`i`.  The debug check of the ranks is not modelled. -/
def randomImpl [Zero R] (dist : G → G → Int) (bond : Nat) (phys : List (BT G R)) (constraint : G) (nPass : Nat)
    (ρ : Nat → Nat → Nat) (fac : Nat → List Nat → List Nat → List Nat → R) : Res (List (BT G R)) := do
  let strings ← (List.range bond).mapM fun j => generate dist (phys.map cvalsOf) constraint nPass (ρ j)
  let out ← siteLoop fac constraint strings 0 phys ⟨[[(1, 0)]], 0, []⟩ (List.replicate bond constraint)
  let back ← BT.orUb out.getLast?
  let back ← BT.basicCreateView back [-1, -1, 0] true
  .ok (out.set (out.length - 1) back)

/-- `random_bMPS(length, bond_dim, phys_dim_spec, q_num)`, MPT.cpp:495-500. -/
def randomUniform [Zero R] (dist : G → G → Int) (len bond : Nat) (p : BT G R) (constraint : G)
    (ρ : Nat → Nat → Nat) (fac : Nat → List Nat → List Nat → List Nat → R) : Res (List (BT G R)) :=
  randomImpl dist bond (List.replicate len p) constraint 1 ρ fac

/-- Adjacent lists that differ, MPT.cpp:523-529. -/
def adjacentChanges : List (List G) → Nat
  | x :: y :: r => (if x ≠ y then 1 else 0) + adjacentChanges (y :: r)
  | _ => 0

/-- `random_bMPS(bond_dim, phys_dim_spec, q_num)`, MPT.cpp:501-533: the number of passes is the number of different
physical indices.  Computing the end of an empty list minus one (519) before the test for it is taken as harmless, and
every tensor is taken to have a dimension. -/
def randomList [Zero R] (dist : G → G → Int) (bond : Nat) (phys : List (BT G R)) (constraint : G)
    (ρ : Nat → Nat → Nat) (fac : Nat → List Nat → List Nat → List Nat → R) : Res (List (BT G R)) :=
  if phys = [] then Res.throw .invalidArgument
  else
    let ranges := phys.map fun p => (p.shape.headD []).map Prod.snd
    let n := 1 + adjacentChanges (ranges.insertionSort (· ≤ ·))
    randomImpl dist bond phys constraint n ρ fac

end
end RM
end QuantiT
