import Verif.Spec.AnyStore
/-
Variables of type `any_quantity` — /repo/include/Conserved/Composite/cquantity.h:40-314.
-/
namespace QuantiT
namespace AnyQ
open Spec

/-- What a statement leads to: it ends, it throws and leaves the variables in a state, or it is undefined. -/
inductive Out where
  | done (vs : List AnyQ)
  | threw (e : Exn) (vs : List AnyQ)
  | ub

/-- `*impl` of variable `x`: undefined for a null pointer. -/
def deref (vs : List AnyQ) (x : Nat) (k : Quantity → Out) : Out := match vs[x]? with
  | some ⟨some q⟩ => k q
  | _ => .ub

/-- Carries on with what a member function of `vquantity` returned; nothing has been written when it threw. -/
def orThrow {α : Type} (vs : List AnyQ) (r : Res α) (k : α → Out) : Out := match r with
  | .ok a => k a
  | .error (.throw e) => .threw e vs
  | .error .ub => .ub

/-- One statement, cquantity.h:40-314.
`x = y` is `*impl = *other.impl` (240-244), `x = y.get()` is `impl = other.clone()` (262-273), `x = std::move(y)` is `swap` (223-228),
`x.swap(y)` exchanges the pointers (218-222) and `x.swap(y.get())` the values (245, quantity_impl.h:346-356).
`x * y` copies the left factor and multiplies in place (255), `x * std::move(y)` multiplies into the right one (291-300) and moves it,
`std::move(x) * y` into the left one (301-310), `std::move(x) * std::move(y)` is the latter (311-312).
`x.inverse()` inverts a copy (234), `std::move(x).inverse()` inverts in place and moves (235-239). -/
def step (vs : List AnyQ) : AnyCmd → Out
  | .new => .done (vs ++ [default])
  | .make q => .done (vs ++ [ofQuantity q])
  | .copy y => match vs[y]? with
    | some v => .done (vs ++ [v.copy])
    | none => .ub
  | .take y => match vs[y]? with
    | some v => .done (vs.set y v.moveCtor.2 ++ [v.moveCtor.1])
    | none => .ub
  | .assign x y => match vs[x]?, vs[y]? with
    | some v, some w => orThrow vs (v.assignCopy w) fun r => .done (vs.set x r)
    | _, _ => .ub
  | .assignRef x y => match vs[x]? with
    | some v => deref vs y fun q => .done (vs.set x (v.assignRef q))
    | none => .ub
  | .assignTake x y => match vs[x]?, vs[y]? with
    | some v, some w => .done ((vs.set x (v.assignMove w).1).set y (v.assignMove w).2)
    | _, _ => .ub
  | .swap x y => match vs[x]?, vs[y]? with
    | some v, some w => .done ((vs.set x w).set y v)
    | _, _ => .ub
  | .swapRef x y => deref vs x fun a => deref vs y fun b =>
      orThrow vs (Quantity.cast a b fun _ => (b, a)) fun r => .done ((vs.set x ⟨some r.1⟩).set y ⟨some r.2⟩)
  | .mulIn x y => deref vs x fun a => deref vs y fun b => orThrow vs (a.op b) fun r => .done (vs.set x ⟨some r⟩)
  | .opIn x y cond => deref vs x fun a => deref vs y fun b => orThrow vs (a.opCond b cond) fun r => .done (vs.set x ⟨some r⟩)
  | .mul x y => deref vs x fun a => deref vs y fun b => orThrow vs (a.op b) fun r => .done (vs ++ [⟨some r⟩])
  | .mulTakeRight x y => deref vs x fun a => deref vs y fun b =>
      orThrow vs (a.opTo b) fun r => .done (vs.set y (moveCtor ⟨some r⟩).2 ++ [(moveCtor ⟨some r⟩).1])
  | .mulTakeLeft x y => deref vs x fun a => deref vs y fun b =>
      orThrow vs (a.op b) fun r => .done (vs.set x (moveCtor ⟨some r⟩).2 ++ [(moveCtor ⟨some r⟩).1])
  | .mulTakeBoth x y => deref vs x fun a => deref vs y fun b =>
      orThrow vs (a.op b) fun r => .done (vs.set x (moveCtor ⟨some r⟩).2 ++ [(moveCtor ⟨some r⟩).1])
  | .inverse x => match vs[x]? with
    | some v => .done (vs ++ [⟨v.copy.impl.map Quantity.inverse⟩])
    | none => .ub
  | .inverseTake x => deref vs x fun a =>
      .done (vs.set x (moveCtor ⟨some a.inverse⟩).2 ++ [(moveCtor ⟨some a.inverse⟩).1])
  | .inverseIn x => deref vs x fun a => .done (vs.set x ⟨some a.inverse⟩)
  | .neutral x => deref vs x fun a => .done (vs ++ [⟨some a.neutral⟩])

/-- A program that catches every exception and carries on; `none` once something undefined happened. -/
def run : List AnyCmd → List AnyQ → Option (List AnyQ × List (Option Exn))
  | [], vs => some (vs, [])
  | c :: p, vs =>
    match step vs c with
    | .done vs' => (run p vs').map fun r => (r.1, none :: r.2)
    | .threw e vs' => (run p vs').map fun r => (r.1, some e :: r.2)
    | .ub => none

end AnyQ
end QuantiT
