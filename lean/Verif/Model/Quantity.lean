import Verif.Base
/-
Conserved quantities: /repo/include/Conserved/quantity.h and
/repo/include/Conserved/Composite/{quantity_impl.h,cquantity.h,quantity_vector_impl.h}.

Machine integers: a `uint16_t` is a `Nat` kept below 65536 by `u16`, an `int16_t` is an `Int`
kept in [-32768, 32767] by `i16`.  Intermediate `int` computations never leave 32 bits here.
-/
namespace QuantiT

/-- Conversion of an `int` to `uint16_t` (C++ [conv.integral]: value modulo 2^16). -/
def u16 (x : Int) : Nat := (x % 65536).toNat

/-- Conversion of an `int` to `int16_t` (two's complement wrap-around). -/
def i16 (x : Int) : Int := Int.bmod x 65536

/-! ### `conserved::C<N>` — quantity.h:62-165 -/

/-- A `C<N>` object: only the stored `uint16_t val` (quantity.h:70). -/
structure CN (N : Nat) where
  val : Nat
  deriving DecidableEq, Repr

namespace CN
variable {N : Nat}

/-- Default constructor, quantity.h:107. -/
def neutral : CN N := ⟨0⟩

/-- Signed constructor, quantity.h:96: `val((_val != -N)*(_val < 0) * N + (_val % N))`.
`%` on `int` is the truncated remainder (`Int.tmod`); the sum is converted to `uint16_t`. -/
def ofInt (v : Int) : CN N :=
  ⟨u16 ((if v ≠ -(N : Int) then 1 else 0) * (if v < 0 then 1 else 0) * (N : Int) + Int.tmod v N)⟩

/-- `op(other, cond)`, quantity.h:120-125.
`val += cond * other.val; val -= (val >= N) * N;` both stored back into 16 bits. -/
def opCond (a b : CN N) (cond : Bool) : CN N :=
  let v1 : Nat := u16 ((a.val : Int) + (if cond then 1 else 0) * (b.val : Int))
  ⟨u16 ((v1 : Int) - (if v1 ≥ N then 1 else 0) * (N : Int))⟩

/-- `op(other)`, `+=`, `*=`, `+`, `*`: quantity.h:116-134. -/
def op (a b : CN N) : CN N := opCond a b true

/-- `inverse_()`/`inverse()`, quantity.h:135-144: `val = bool(val) * (N - val)`. -/
def inverse (a : CN N) : CN N :=
  ⟨u16 ((if a.val ≠ 0 then 1 else 0) * ((N : Int) - (a.val : Int)))⟩

end CN

/-! ### `conserved::Z` — quantity.h:175-239 -/

/-- A `Z` object: the stored `int16_t val` (quantity.h:177). -/
structure ZQ where
  val : Int
  deriving DecidableEq, Repr

namespace ZQ

/-- Default constructor, quantity.h:188. -/
def neutral : ZQ := ⟨0⟩

/-- Value constructor from an `int16_t`, quantity.h:183-187 (the argument conversion wraps). -/
def ofInt (v : Int) : ZQ := ⟨i16 v⟩

/-- `op(other, cond)`, quantity.h:206-211. -/
def opCond (a b : ZQ) (cond : Bool) : ZQ := ⟨i16 (a.val + (if cond then 1 else 0) * b.val)⟩

/-- `op(other)`, `+=`, `*=`, `+`, `*`: quantity.h:196-205. -/
def op (a b : ZQ) : ZQ := opCond a b true

/-- `inverse_()`/`inverse()`, quantity.h:212-221. -/
def inverse (a : ZQ) : ZQ := ⟨i16 (-a.val)⟩

end ZQ

/-- `distance2_impl` on the values returned by `get_val()`, quantity.h:37-42.
The difference of two 16 bit numbers and its square fit in `int64_t`. -/
def distance2Impl (a b : Int) : Int := (a - b) * (a - b)

/-! ### Composite quantities -/

/-- The simple group types a composite is instantiated with. -/
inductive GrpType where
  | z
  | c (N : Nat)
  deriving DecidableEq, Repr

/-- One component of the `std::tuple<Groups...> val` of a composite (quantity_impl.h:182),
carrying its static type. -/
inductive Comp where
  | z (q : ZQ)
  | c (N : Nat) (q : CN N)
  deriving DecidableEq, Repr

namespace Comp

/-- Static type of a component. -/
def type : Comp → GrpType
  | z _ => .z
  | c N _ => .c N

/-- `get_val()`, quantity.h:115 and 190. -/
def getVal : Comp → Int
  | z q => q.val
  | c _ q => q.val

/-- The default constructed component of a type (quantity.h:107, 188). -/
def neutralOf : GrpType → Comp
  | .z => .z ZQ.neutral
  | .c N => .c N CN.neutral

/-- Component `op(other, cond)`.  Components of different static types never meet: the enclosing
`dynamic_cast` has already thrown; that unreachable case returns the left operand. -/
def opCond : Comp → Comp → Bool → Comp
  | z a, z b, k => .z (a.opCond b k)
  | c N a, c M b, k => if h : M = N then .c N (a.opCond (h ▸ b) k) else .c N a
  | a, _, _ => a

/-- Component `inverse_()`. -/
def inverse : Comp → Comp
  | z a => .z a.inverse
  | c N a => .c N a.inverse

/-- Component `operator<` (quantity.h:155, 233): comparison of the stored values. -/
def lt (a b : Comp) : Bool := decide (a.getVal < b.getVal)

/-- Component `distance2` (quantity.h:145-148, 226-229). -/
def distance2 (a b : Comp) : Int := distance2Impl a.getVal b.getVal

end Comp

/-- A concrete `quantity<Groups...>` seen through `vquantity&` (quantity_impl.h:116-183):
the list of its typed components. -/
abbrev Quantity := List Comp

namespace Quantity

/-- The dynamic type `quantity<Groups...>`: the list of the component types. -/
def type (q : Quantity) : List GrpType := List.map Comp.type q

/-- `dynamic_cast<const quantity<Groups...>&>(other)`: succeeds iff the dynamic types are equal,
else `std::bad_cast`. -/
def cast {α} (a b : Quantity) (k : Unit → α) : Res α :=
  if a.type = b.type then .ok (k ()) else Res.throw .badCast

/-- `op(const vquantity&, bool)`: quantity_impl.h:255-265 (`for_each2` over both tuples). -/
def opCond (a b : Quantity) (k : Bool) : Res Quantity :=
  cast a b fun _ => List.zipWith (fun x y => Comp.opCond x y k) a b

/-- `op(const vquantity&)`, `*=`, `+=`, `operator*`, `operator+`: quantity_impl.h:249-271, 367-377,
cquantity.h:250-261. -/
def op (a b : Quantity) : Res Quantity := opCond a b true

/-- `op_to(vquantity& other) const`: quantity_impl.h:284-293; `other = op(this, other)`.
Returns the new value of `other`. Used by `operator*(cref, any_quantity&&)`, cquantity.h:291-300. -/
def opTo (a other : Quantity) : Res Quantity :=
  cast a other fun _ => List.zipWith (fun x y => Comp.opCond x y true) a other

/-- `inverse_()`, `inverse()`, `inv()`: quantity_impl.h:294-299, cquantity.h:229-239, 285-286. -/
def inverse (a : Quantity) : Quantity := List.map Comp.inverse a

/-- `make_neutral()`/`neutral()`: quantity_impl.h:273-277. -/
def neutral (a : Quantity) : Quantity := List.map Comp.neutralOf a.type

/-- `operator==`: quantity_impl.h:305-314 (tuple equality). -/
def eq (a b : Quantity) : Res Bool := cast a b fun _ => decide (a = b)

/-- `operator!=`: quantity_impl.h:315-324. -/
def ne (a b : Quantity) : Res Bool := cast a b fun _ => !decide (a = b)

/-- `std::tuple` `operator<`: at the first component where `x<y` or `y<x`, decide. -/
def ltTuple : Quantity → Quantity → Bool
  | x :: xs, y :: ys => if x.lt y then true else if y.lt x then false else ltTuple xs ys
  | _, _ => false

/-- `operator<`: quantity_impl.h:325-334. -/
def lt (a b : Quantity) : Res Bool := cast a b fun _ => ltTuple a b

/-- `operator>`: quantity_impl.h:336-345 (`std::tuple` `>` is `<` with swapped operands). -/
def gt (a b : Quantity) : Res Bool := cast a b fun _ => ltTuple b a

/-- `distance2`: quantity_impl.h:227-238.  `int64_t` overflow would need more than 2^31 components. -/
def distance2 (a b : Quantity) : Res Int :=
  cast a b fun _ => (List.zipWith Comp.distance2 a b).foldl (· + ·) 0

end Quantity

/-! ### `any_quantity` -/

/-- `any_quantity`: the owning pointer `impl` (cquantity.h:42); `none` is the null pointer left
behind by a move construction. -/
structure AnyQ where
  impl : Option Quantity
  deriving DecidableEq, Repr

namespace AnyQ

/-- Default constructor: the trivial group `C<1>` (cquantity.h:81, sources/any_quantity.cpp:19). -/
def default : AnyQ := ⟨some [.c 1 CN.neutral]⟩

/-- Construction from a `vquantity`, cquantity.h:48. -/
def ofQuantity (q : Quantity) : AnyQ := ⟨some q⟩

/-- Copy construction, cquantity.h:82-85 (null copies as the trivial element). -/
def copy (o : AnyQ) : AnyQ := match o.impl with
  | some q => ⟨some q⟩
  | none => default

/-- Move construction, cquantity.h:88: returns (new object, moved-from object). -/
def moveCtor (o : AnyQ) : AnyQ × AnyQ := (o, ⟨none⟩)

/-- `operator=(const any_quantity&)`, cquantity.h:240-244: `*impl = *other.impl`, i.e. the virtual
assignment of quantity_impl.h:300-304, which `dynamic_cast`s. Null pointers are dereferenced: UB. -/
def assignCopy (a b : AnyQ) : Res AnyQ := match a.impl, b.impl with
  | some qa, some qb => Quantity.cast qa qb fun _ => ⟨some qb⟩
  | _, _ => Res.ub

/-- `operator=(any_quantity_cref)`, cquantity.h:262-272: `impl = other.clone()`. -/
def assignRef (_a : AnyQ) (q : Quantity) : AnyQ := ⟨some q⟩

/-- `operator=(any_quantity&&)`, cquantity.h:223-228: swap. Returns (new `*this`, new `other`). -/
def assignMove (a b : AnyQ) : AnyQ × AnyQ := (b, a)

end AnyQ

/-! ### `quantity_vector` -/

/-- Inner loop of `permute`, quantity_vector_impl.h:418-421:
`for (i = 0; i < rep; ++i, ++p) out[p] = (*this)[s + i];`.  Unchecked vector accesses: out of range is UB. -/
def permuteInner {α} (this : List α) (s : Nat) : (rep i : Nat) → (p : Nat) → List α → Res (List α × Nat)
  | 0, _, p, out => .ok (out, p)
  | rep + 1, i, p, out =>
    match this[s + i]? with
    | none => Res.ub
    | some x => if p < out.length then permuteInner this s rep (i + 1) (p + 1) (out.set p x) else Res.ub

/-- Outer loop of `permute`, quantity_vector_impl.h:412-422. `repetition[*permute_begin]` is unchecked. -/
def permuteOuter {α} (this : List α) (repetition : List Nat) : List Nat → Nat → List α → Res (List α)
  | [], _, out => .ok out
  | d :: ds, p, out =>
    match repetition[d]? with
    | none => Res.ub
    | some rep =>
      match permuteInner this (repetition.take d).sum rep 0 p out with
      | .ok (out', p') => permuteOuter this repetition ds p' out'
      | .error e => .error e

/-- `quantity_vector::permute`, quantity_vector_impl.h:407-424.  `dflt` is the default constructed
element filling `quantity_vector out(size())`.  Simplification: permutation entries are naturals. -/
def qvPermute {α} (dflt : α) (this : List α) (perm : List Nat) (repetition : List Nat) : Res (List α) :=
  permuteOuter this repetition perm 0 (List.replicate this.length dflt)

end QuantiT
