import Verif.Spec.Quantity
/-
Programs over variables that hold conserved quantities of any type, for property C114, and what they mean.
-/
namespace QuantiT
namespace Spec

/-- A statement about variables of type `any_quantity`, numbered in order of creation. -/
inductive AnyCmd where
  /-- `any_quantity x;` -/
  | new
  /-- `any_quantity x(q);` -/
  | make (q : Quantity)
  /-- `any_quantity x(y);` -/
  | copy (y : Nat)
  /-- `any_quantity x(std::move(y));` -/
  | take (y : Nat)
  /-- `x = y` -/
  | assign (x y : Nat)
  /-- `x = y.get()`: from a reference to the quantity in `y` -/
  | assignRef (x y : Nat)
  /-- `x = std::move(y)` -/
  | assignTake (x y : Nat)
  /-- `x.swap(y)` -/
  | swap (x y : Nat)
  /-- `x.swap(y.get())` -/
  | swapRef (x y : Nat)
  /-- `x *= y`, `x += y` -/
  | mulIn (x y : Nat)
  /-- `x.op(y, cond)` -/
  | opIn (x y : Nat) (cond : Bool)
  /-- `any_quantity z = x * y;` -/
  | mul (x y : Nat)
  /-- `any_quantity z = x * std::move(y);` -/
  | mulTakeRight (x y : Nat)
  /-- `any_quantity z = std::move(x) * y;` -/
  | mulTakeLeft (x y : Nat)
  /-- `any_quantity z = std::move(x) * std::move(y);` -/
  | mulTakeBoth (x y : Nat)
  /-- `any_quantity z = x.inverse();` -/
  | inverse (x : Nat)
  /-- `any_quantity z = std::move(x).inverse();` -/
  | inverseTake (x : Nat)
  /-- `x.inverse_()` -/
  | inverseIn (x : Nat)
  /-- `any_quantity z = x.neutral();` -/
  | neutral (x : Nat)

/-- A charge: for each of its components the group it belongs to, and a number. -/
abbrev Charge := List (GrpType × Int)

/-- What the variables hold: a charge, or nothing after a move. -/
abbrev AnyStore := List (Option Charge)

/-- The charge of variable `x`. -/
def held (vs : AnyStore) (x : Nat) : Option Charge := (vs[x]?).join

/-- The groups of a charge. -/
def kinds (c : Charge) : List GrpType := c.map Prod.fst

/-- The sum of two charges of the same groups. -/
def plus (a b : Charge) : Charge := List.zipWith (fun x y => (x.1, compose x.1 x.2 y.2)) a b

/-- The opposite charge. -/
def minus (a : Charge) : Charge := a.map fun x => (x.1, invert x.1 x.2)

/-- No charge, in the same groups. -/
def zero (a : Charge) : Charge := a.map fun x => (x.1, 0)

/-- The only element of the trivial group. -/
def trivialCharge : Charge := [(.c 1, 0)]

/-- The charge written `q` in the program. -/
def chargeOf (q : Quantity) : Charge := q.map fun x => (x.type, x.getVal)

/-- The statement is refused with `bad_cast`: it brings charges of different groups together. -/
def mismatch (vs : AnyStore) : AnyCmd → Bool
  | .assign x y | .swapRef x y | .mulIn x y | .opIn x y _ | .mul x y | .mulTakeRight x y | .mulTakeLeft x y | .mulTakeBoth x y =>
    decide (kinds ((held vs x).getD []) ≠ kinds ((held vs y).getD []))
  | _ => false

/-- What a statement that is not refused does.  A variable that was moved from is copied, and inverted, as the trivial charge; the move
assignment exchanges the two variables; a product of two variables that may both be moved from takes the left one only. -/
def anyStep (vs : AnyStore) : AnyCmd → AnyStore
  | .new => vs ++ [some trivialCharge]
  | .make q => vs ++ [some (chargeOf q)]
  | .copy y => vs ++ [some ((held vs y).getD trivialCharge)]
  | .take y => vs.set y none ++ [held vs y]
  | .assign x y | .assignRef x y => vs.set x (held vs y)
  | .assignTake x y | .swap x y | .swapRef x y => (vs.set x (held vs y)).set y (held vs x)
  | .mulIn x y => vs.set x (some (plus ((held vs x).getD []) ((held vs y).getD [])))
  | .opIn x y cond => if cond then vs.set x (some (plus ((held vs x).getD []) ((held vs y).getD []))) else vs
  | .mul x y => vs ++ [some (plus ((held vs x).getD []) ((held vs y).getD []))]
  | .mulTakeRight x y => vs.set y none ++ [some (plus ((held vs x).getD []) ((held vs y).getD []))]
  | .mulTakeLeft x y | .mulTakeBoth x y => vs.set x none ++ [some (plus ((held vs x).getD []) ((held vs y).getD []))]
  | .inverse x => vs ++ [some (minus ((held vs x).getD trivialCharge))]
  | .inverseTake x => vs.set x none ++ [some (minus ((held vs x).getD []))]
  | .inverseIn x => vs.set x (some (minus ((held vs x).getD [])))
  | .neutral x => vs ++ [some (zero ((held vs x).getD []))]

/-- The statement names variables that exist and uses no charge of a variable that was moved from. -/
def AnyAllowed (vs : AnyStore) : AnyCmd → Prop
  | .new => True
  | .make q => QValid q
  | .copy y | .take y | .inverse y => y < vs.length
  | .assignTake x y | .swap x y => x < vs.length ∧ y < vs.length
  | .assignRef x y => x < vs.length ∧ held vs y ≠ none
  | .assign x y | .swapRef x y | .mulIn x y | .opIn x y _ | .mul x y | .mulTakeRight x y | .mulTakeLeft x y | .mulTakeBoth x y =>
    held vs x ≠ none ∧ held vs y ≠ none
  | .inverseTake x | .inverseIn x | .neutral x => held vs x ≠ none

/-- A whole program: a refused statement changes nothing.  Also the record of refusals. -/
def anyRun : List AnyCmd → AnyStore → AnyStore × List Bool
  | [], vs => (vs, [])
  | c :: p, vs =>
    let r := anyRun p (if mismatch vs c then vs else anyStep vs c)
    (r.1, mismatch vs c :: r.2)

/-- Every statement of the program is allowed when it is reached. -/
def AllAnyAllowed : List AnyCmd → AnyStore → Prop
  | [], _ => True
  | c :: p, vs => AnyAllowed vs c ∧ AllAnyAllowed p (if mismatch vs c then vs else anyStep vs c)

end Spec
end QuantiT
