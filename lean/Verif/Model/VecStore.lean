import Verif.Spec.VecStore
/-
`any_quantity_vector` — /repo/include/Conserved/Composite/quantity_vector.h:26-284, on top of `quantity_vector`,
/repo/include/Conserved/Composite/quantity_vector_impl.h:240-512.
Capacity and addresses are not modelled; `std::vector` has its documented meaning, with undefined behaviour out of range.
-/
namespace QuantiT
open Spec

/-- `any_quantity_vector`: the owning pointer (quantity_vector.h:28); null, or a `quantity_vector<S>` with its type `S`. -/
abbrev QVec := Option (List GrpType × List Quantity)

namespace QVec

/-- What a statement leads to: it ends, it throws and leaves the variables in a state, or it is undefined. -/
inductive Out where
  | done (vs : List QVec)
  | threw (e : Exn) (vs : List QVec)
  | ub

/-- `dynamic_cast<const S &>(q)`. -/
def castTo (ty : List GrpType) (q : Quantity) : Res Quantity := if q.type = ty then .ok q else Res.throw .badCast

/-- The default constructed `S`, which fills `resize(count)`. -/
def dflt (ty : List GrpType) : Quantity := ty.map Comp.neutralOf

/-- `x[n] = q`, quantity_vector_impl.h:275 and quantity_impl.h:300-304. -/
def put (n : Nat) (q : Quantity) (ty : List GrpType) (l : List Quantity) : Res (List Quantity) :=
  if l.length ≤ n then Res.ub else do
    let q' ← castTo ty q
    .ok (l.set n q')

/-- `x.at(n) = q`, quantity_vector_impl.h:277. -/
def putAt (n : Nat) (q : Quantity) (ty : List GrpType) (l : List Quantity) : Res (List Quantity) :=
  if l.length ≤ n then Res.throw .outOfRange else do
    let q' ← castTo ty q
    .ok (l.set n q')

/-- `push_back`, quantity_vector_impl.h:389. -/
def pushBack (q : Quantity) (ty : List GrpType) (l : List Quantity) : Res (List Quantity) := do
  let q' ← castTo ty q
  .ok (l ++ [q'])

/-- `pop_back`, quantity_vector_impl.h:391. -/
def popBack (_ty : List GrpType) (l : List Quantity) : Res (List Quantity) := if l = [] then Res.ub else .ok l.dropLast

/-- `insert(pos, count, val)`, quantity_vector_impl.h:357-360; `insert(pos, val)`, 353-356, is `count = 1`. -/
def insertN (p n : Nat) (q : Quantity) (ty : List GrpType) (l : List Quantity) : Res (List Quantity) := do
  let q' ← castTo ty q
  if l.length < p then Res.ub else .ok (l.take p ++ List.replicate n q' ++ l.drop p)

/-- `insert(pos, first, last)`, quantity_vector_impl.h:361-373: the iterators carry the pointer arithmetic of their type, which
must be that of `S` (`to_S_iterator`, 455-508).  `src` is null for iterators of a variable without type. -/
def insertRange (p : Nat) (src : Option (List GrpType × List Quantity)) (ty : List GrpType) (l : List Quantity) :
    Res (List Quantity) :=
  match src with
  | none => Res.throw .badCast
  | some (ty', ins) =>
    if ty' ≠ ty then Res.throw .badCast
    else if l.length < p then Res.ub else .ok (l.take p ++ ins ++ l.drop p)

/-- `erase(first, last)`, quantity_vector_impl.h:380-385; `erase(pos)`, 376-379, erases `[p, p + 1)`. -/
def eraseRange (a b : Nat) (_ty : List GrpType) (l : List Quantity) : Res (List Quantity) :=
  if b < a ∨ l.length < b then Res.ub else .ok (l.take a ++ l.drop b)

/-- `resize(count)`, quantity_vector_impl.h:392-396. -/
def resize (n : Nat) (ty : List GrpType) (l : List Quantity) : Res (List Quantity) :=
  .ok (l.take n ++ List.replicate (n - l.length) (dflt ty))

/-- `resize(count, val)`, quantity_vector_impl.h:397-400. -/
def resizeFill (n : Nat) (q : Quantity) (ty : List GrpType) (l : List Quantity) : Res (List Quantity) := do
  let q' ← castTo ty q
  .ok (l.take n ++ List.replicate (n - l.length) q')

/-- A modifier called through the pointer of variable `x`; `null` is what happens without one. -/
def through (vs : List QVec) (x : Nat) (null : Out) (f : List GrpType → List Quantity → Res (List Quantity)) : Out :=
  match vs[x]? with
  | none => .ub
  | some none => null
  | some (some (ty, l)) =>
    match f ty l with
    | .ok l' => .done (vs.set x (some (ty, l')))
    | .error (.throw e) => .threw e vs
    | .error .ub => .ub

/-- The loop of the initializer list constructor, quantity_vector.h:52-59. -/
def fromList : List Quantity → List GrpType → List Quantity → Res (List Quantity)
  | [], _, l => .ok l
  | q :: qs, ty, l => do
    let l' ← pushBack q ty l
    fromList qs ty l'

/-- One statement, quantity_vector.h:44-276.  A null pointer is tested by most modifiers; not by the copy constructor (46), nor by
`operator[]` of a variable that is not const (84-87).  `begin() + p` on a variable without type goes through a null pointer
(quantity_vector_impl.h:129-133) unless `p = 0`, which is read here as `begin()`. -/
def step (vs : List QVec) : VecCmd → Out
  | .new => .done (vs ++ [none])
  | .fill n q => .done (vs ++ [some (q.type, List.replicate n q)])
  | .list [] => .ub
  | .list (q :: qs) =>
    match fromList (q :: qs) q.type [] with
    | .ok l => .done (vs ++ [some (q.type, l)])
    | .error (.throw e) => .threw e vs
    | .error .ub => .ub
  | .copy y => match vs[y]? with
    | some (some v) => .done (vs ++ [some v])
    | _ => .ub
  | .take y => match vs[y]? with
    | some v => .done (vs.set y none ++ [v])
    | none => .ub
  | .assign x y => match vs[y]? with
    | some (some v) => if x < vs.length then .done (vs.set x (some v)) else .ub
    | _ => .ub
  | .assignTake x y => match vs[y]? with
    | some v => if x < vs.length then .done ((vs.set y none).set x v) else .ub
    | none => .ub
  | .swap x y => match vs[x]?, vs[y]? with
    | some v, some w => .done ((vs.set x w).set y v)
    | _, _ => .ub
  | .put x n q => through vs x .ub (put n q)
  | .putAt x n q => through vs x (.threw .runtimeError vs) (putAt n q)
  | .pushBack x q => through vs x (.done (vs.set x (some (q.type, [q])))) (pushBack q)
  | .popBack x => through vs x (.threw .runtimeError vs) popBack
  | .insert x p q => through vs x (if p = 0 then .threw .runtimeError vs else .ub) (insertN p 1 q)
  | .insertN x p n q => through vs x (if p = 0 then .threw .runtimeError vs else .ub) (insertN p n q)
  | .insertRange x p y a b => match vs[y]? with
    | none => .ub
    | some none =>
      if a = 0 ∧ b = 0 then
        through vs x (if p = 0 then .threw .runtimeError vs else .ub) (insertRange p none)
      else .ub
    | some (some (ty, l)) =>
      if x = y ∨ b < a ∨ l.length < b then .ub
      else through vs x (if p = 0 then .threw .runtimeError vs else .ub) (insertRange p (some (ty, (l.take b).drop a)))
  | .insertReversed x p y => match vs[y]? with
    | none => .ub
    | some v =>
      if x = y then .ub
      else through vs x (if p = 0 then .threw .runtimeError vs else .ub)
        (insertRange p (v.map fun w => (w.1, w.2.reverse)))
  | .erase x p => through vs x (if p = 0 then .done vs else .ub) (eraseRange p (p + 1))
  | .eraseRange x a b => through vs x (if a = 0 ∧ b = 0 then .done vs else .ub) (eraseRange a b)
  | .clear x => through vs x (.done vs) fun _ _ => .ok []
  | .resize x n => through vs x (.threw .runtimeError vs) (resize n)
  | .resizeFill x n q => through vs x (.done (vs.set x (some (q.type, List.replicate n q)))) (resizeFill n q)
  | .permute y perm rep => match vs[y]? with
    | none => .ub
    | some none => .done (vs ++ [none])
    | some (some (ty, l)) =>
      match qvPermute (dflt ty) l perm rep with
      | .ok l' => .done (vs ++ [some (ty, l')])
      | .error (.throw e) => .threw e vs
      | .error .ub => .ub

/-- A program that catches every exception and carries on; `none` once something undefined happened. -/
def run : List VecCmd → List QVec → Option (List QVec × List (Option Exn))
  | [], vs => some (vs, [])
  | c :: p, vs =>
    match step vs c with
    | .done vs' => (run p vs').map fun r => (r.1, none :: r.2)
    | .threw e vs' => (run p vs').map fun r => (r.1, some e :: r.2)
    | .ub => none

/-- `x.size()`, quantity_vector.h:143-146, without test of the pointer; likewise `empty()`. -/
def size (v : QVec) : Res Nat := match v with
  | none => Res.ub
  | some (_, l) => .ok l.length

/-- `x.at(n)`, quantity_vector.h:93-102. -/
def getAt (v : QVec) (n : Nat) : Res Quantity := match v with
  | none => Res.throw .runtimeError
  | some (_, l) => match l[n]? with
    | some q => .ok q
    | none => Res.throw .outOfRange

/-- `x == y`, quantity_vector.h:75-78 and quantity_vector_impl.h:427-436: `ptr and *ptr == *(other.ptr)`. -/
def eq (v w : QVec) : Res Bool := match v, w with
  | none, _ => .ok false
  | some _, none => Res.ub
  | some (ty, l), some (ty', l') => if ty' = ty then .ok (decide (l = l')) else Res.throw .badCast

/-- The assignments of `c_vals_from_struct_list`, btensor.cpp:285-299: the charges of the list written over neutral ones. -/
def fillVals (ty : List GrpType) : List Quantity → Nat → List Quantity → Res (List Quantity)
  | [], _, l => .ok l
  | q :: qs, i, l => do
    let l' ← put i q ty l
    fillVals ty qs (i + 1) l'

/-- `c_vals_from_struct_list(list, size, sel_rul)`, btensor.cpp:285-299. -/
def cVals (list : List (List (Nat × Quantity))) (size : Nat) (rule : Quantity) : Res (List Quantity) :=
  fillVals rule.type (list.flatMap fun d => d.map Prod.snd) 0 (List.replicate size rule.neutral)

end QVec
end QuantiT
