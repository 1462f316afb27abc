import Verif.Model.Quantity
/-
Programs over variables that hold lists of conserved quantities of one type each, for property C98, and what they mean.
-/
namespace QuantiT
namespace Spec

/-- A statement about variables of type `any_quantity_vector`, numbered in order of creation. -/
inductive VecCmd where
  /-- `any_quantity_vector x;` -/
  | new
  /-- `any_quantity_vector x(n, q);` -/
  | fill (n : Nat) (q : Quantity)
  /-- `any_quantity_vector x{q0, q1, ...};` -/
  | list (qs : List Quantity)
  /-- `any_quantity_vector x(y);` -/
  | copy (y : Nat)
  /-- `any_quantity_vector x(std::move(y));` -/
  | take (y : Nat)
  /-- `x = y` -/
  | assign (x y : Nat)
  /-- `x = std::move(y)` -/
  | assignTake (x y : Nat)
  /-- `x.swap(y)` -/
  | swap (x y : Nat)
  /-- `x[n] = q` -/
  | put (x n : Nat) (q : Quantity)
  /-- `x.at(n) = q` -/
  | putAt (x n : Nat) (q : Quantity)
  /-- `x.push_back(q)` -/
  | pushBack (x : Nat) (q : Quantity)
  /-- `x.pop_back()` -/
  | popBack (x : Nat)
  /-- `x.insert(x.begin() + p, q)` -/
  | insert (x p : Nat) (q : Quantity)
  /-- `x.insert(x.begin() + p, n, q)` -/
  | insertN (x p n : Nat) (q : Quantity)
  /-- `x.insert(x.begin() + p, y.begin() + a, y.begin() + b)` -/
  | insertRange (x p y a b : Nat)
  /-- `x.insert(x.begin() + p, y.rbegin(), y.rend())` -/
  | insertReversed (x p y : Nat)
  /-- `x.erase(x.begin() + p)` -/
  | erase (x p : Nat)
  /-- `x.erase(x.begin() + a, x.begin() + b)` -/
  | eraseRange (x a b : Nat)
  /-- `x.clear()` -/
  | clear (x : Nat)
  /-- `x.resize(n)` -/
  | resize (x n : Nat)
  /-- `x.resize(n, q)` -/
  | resizeFill (x n : Nat) (q : Quantity)
  /-- `auto x = y.permute(perm.begin(), perm.end(), rep);` -/
  | permute (y : Nat) (perm rep : List Nat)

/-- What the variables hold: the type of quantity, if it is known yet, and the list. -/
abbrev VecStore := List (Option (List GrpType) × List Quantity)

/-- Type of the quantities of variable `x`. -/
def typeOf (vs : VecStore) (x : Nat) : Option (List GrpType) := (vs.getD x (none, [])).1
/-- Quantities of variable `x`. -/
def items (vs : VecStore) (x : Nat) : List Quantity := (vs.getD x (none, [])).2
/-- The variable holds another type of quantity than `q`. -/
def foreign (vs : VecStore) (x : Nat) (q : Quantity) : Bool := (typeOf vs x).any (· ≠ q.type)

/-- The exception with which a statement is refused, if any: `bad_cast` for a quantity of another type than the variable holds,
`out_of_range` for `at` behind the end, `runtime_error` for a variable without type. -/
def refusal (vs : VecStore) : VecCmd → Option Exn
  | .list [] => none
  | .list (q :: qs) => if qs.any (·.type ≠ q.type) then some .badCast else none
  | .put x _ q | .pushBack x q | .resizeFill x _ q => if foreign vs x q then some .badCast else none
  | .putAt x n q =>
    if typeOf vs x = none then some .runtimeError
    else if (items vs x).length ≤ n then some .outOfRange
    else if foreign vs x q then some .badCast else none
  | .insert x _ q | .insertN x _ _ q =>
    if typeOf vs x = none then some .runtimeError else if foreign vs x q then some .badCast else none
  | .insertRange x _ y _ _ | .insertReversed x _ y =>
    if typeOf vs x = none then some .runtimeError else if typeOf vs x ≠ typeOf vs y then some .badCast else none
  | .popBack x | .resize x _ => if typeOf vs x = none then some .runtimeError else none
  | _ => none

/-- What a statement that is not refused does. -/
def vecStep (vs : VecStore) : VecCmd → VecStore
  | .new => vs ++ [(none, [])]
  | .fill n q => vs ++ [(some q.type, List.replicate n q)]
  | .list qs => vs ++ [(qs.head?.map Quantity.type, qs)]
  | .copy y => vs ++ [(typeOf vs y, items vs y)]
  | .take y => vs.set y (none, []) ++ [(typeOf vs y, items vs y)]
  | .assign x y => vs.set x (typeOf vs y, items vs y)
  | .assignTake x y => (vs.set y (none, [])).set x (typeOf vs y, items vs y)
  | .swap x y => (vs.set x (typeOf vs y, items vs y)).set y (typeOf vs x, items vs x)
  | .put x n q | .putAt x n q => vs.set x (typeOf vs x, (items vs x).set n q)
  | .pushBack x q => vs.set x (some q.type, items vs x ++ [q])
  | .popBack x => vs.set x (typeOf vs x, (items vs x).dropLast)
  | .insert x p q => vs.set x (typeOf vs x, (items vs x).take p ++ q :: (items vs x).drop p)
  | .insertN x p n q => vs.set x (typeOf vs x, (items vs x).take p ++ List.replicate n q ++ (items vs x).drop p)
  | .insertRange x p y a b =>
    vs.set x (typeOf vs x, (items vs x).take p ++ ((items vs y).take b).drop a ++ (items vs x).drop p)
  | .insertReversed x p y => vs.set x (typeOf vs x, (items vs x).take p ++ (items vs y).reverse ++ (items vs x).drop p)
  | .erase x p => vs.set x (typeOf vs x, (items vs x).take p ++ (items vs x).drop (p + 1))
  | .eraseRange x a b => vs.set x (typeOf vs x, (items vs x).take a ++ (items vs x).drop b)
  | .clear x => vs.set x (typeOf vs x, [])
  | .resize x n => vs.set x (typeOf vs x, (items vs x).take n ++
      List.replicate (n - (items vs x).length) (((typeOf vs x).getD []).map Comp.neutralOf))
  | .resizeFill x n q => vs.set x (some q.type, (items vs x).take n ++ List.replicate (n - (items vs x).length) q)
  | .permute y perm rep =>
    vs ++ [(typeOf vs y, perm.flatMap fun d => ((items vs y).drop (rep.take d).sum).take (rep.getD d 0))]

/-- The statement names variables that exist and positions inside them; it does not copy a variable without type, nor insert a
variable into itself. -/
def InBounds (vs : VecStore) : VecCmd → Prop
  | .new | .fill .. => True
  | .list qs => qs ≠ []
  | .copy y => y < vs.length ∧ typeOf vs y ≠ none
  | .take y => y < vs.length
  | .assign x y => x < vs.length ∧ y < vs.length ∧ typeOf vs y ≠ none
  | .assignTake x y | .swap x y => x < vs.length ∧ y < vs.length
  | .put x n _ => x < vs.length ∧ n < (items vs x).length
  | .putAt x _ _ | .pushBack x _ | .clear x | .resize x _ | .resizeFill x _ _ => x < vs.length
  | .popBack x => x < vs.length ∧ (typeOf vs x ≠ none → items vs x ≠ [])
  | .insert x p _ | .insertN x p _ _ => x < vs.length ∧ p ≤ (items vs x).length
  | .insertRange x p y a b =>
    x < vs.length ∧ y < vs.length ∧ x ≠ y ∧ p ≤ (items vs x).length ∧ a ≤ b ∧ b ≤ (items vs y).length
  | .insertReversed x p y => x < vs.length ∧ y < vs.length ∧ x ≠ y ∧ p ≤ (items vs x).length
  | .erase x p => x < vs.length ∧ p < (items vs x).length
  | .eraseRange x a b => x < vs.length ∧ a ≤ b ∧ b ≤ (items vs x).length
  | .permute y perm rep => y < vs.length ∧ rep.sum = (items vs y).length ∧ perm.Perm (List.range rep.length)

/-- A whole program: a refused statement changes nothing.  Also the record of refusals. -/
def vecRun : List VecCmd → VecStore → VecStore × List (Option Exn)
  | [], vs => (vs, [])
  | c :: p, vs =>
    let r := vecRun p (if refusal vs c = none then vecStep vs c else vs)
    (r.1, refusal vs c :: r.2)

/-- Every statement of the program is in bounds when it is reached. -/
def AllInBounds : List VecCmd → VecStore → Prop
  | [], _ => True
  | c :: p, vs => InBounds vs c ∧ AllInBounds p (if refusal vs c = none then vecStep vs c else vs)

end Spec
end QuantiT
