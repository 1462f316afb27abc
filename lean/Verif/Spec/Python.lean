/-
Python sequences, for property C101: what the operations on a `list` mean, after the Python language and library references.
-/
namespace QuantiT
namespace Spec
variable {T : Type}

/-- The position that index `i` of a sequence of `n` items means: negative indices count from the end. -/
def pyIndex (n : Nat) (i : Int) : Option Nat :=
  if 0 ≤ i ∧ i < n then some i.toNat
  else if -n ≤ i ∧ i < 0 then some (n + i).toNat
  else none

/-- `start:stop:step`. -/
structure PySlice where
  start : Option Int
  stop : Option Int
  step : Int

/-- A bound of a slice in a sequence of `n` items: a negative bound counts from the end, and a bound outside is moved to `lo` or `hi`. -/
def pyBound (n : Nat) (lo hi : Int) (i : Int) : Int :=
  max lo (min hi (if i < 0 then i + n else i))

/-- The first position of a slice. -/
def PySlice.first (s : PySlice) (n : Nat) : Int :=
  if 0 < s.step then (s.start.map (pyBound n 0 n)).getD 0 else (s.start.map (pyBound n (-1) (n - 1))).getD (n - 1)

/-- The position that ends a slice. -/
def PySlice.last (s : PySlice) (n : Nat) : Int :=
  if 0 < s.step then (s.stop.map (pyBound n 0 n)).getD n else (s.stop.map (pyBound n (-1) (n - 1))).getD (-1)

/-- The positions of a slice: `first`, `first + step`, … until `last` is reached or passed. -/
def PySlice.positions (s : PySlice) (n : Nat) : List Nat :=
  (((List.range n).map fun m : Nat => s.first n + m * s.step).takeWhile
    fun x => decide (if 0 < s.step then x < s.last n else s.last n < x)).map Int.toNat

/-- An operation on a sequence. -/
inductive PyOp (T : Type) where
  /-- `l[i]`. -/
  | get (i : Int)
  /-- `l[s]`. -/
  | getSlice (s : PySlice)
  /-- `l[i] = v`. -/
  | set (i : Int) (v : T)
  /-- `l[s] = vs`. -/
  | setSlice (s : PySlice) (vs : List T)
  /-- `l.insert(p, v)`. -/
  | insert (p : Nat) (v : T)
  /-- `l.erase(p)`, `del l[p]` of a list. -/
  | erase (p : Nat)
  /-- `l.erase(a, b)`, `del l[a:b]` of a list. -/
  | eraseRange (a b : Nat)
  /-- `l.append(v)`. -/
  | append (v : T)
  /-- `l.pop()`. -/
  | pop
  /-- `l.pop(p)`. -/
  | popAt (p : Nat)
  /-- `l.clear()`. -/
  | clear

/-- Puts items at positions. -/
def putAll : List Nat → List T → List T → List T
  | p :: ps, v :: vs, l => putAll ps vs (l.set p v)
  | _, _, l => l

/-- The items returned and the sequence afterwards; `none` if an exception is raised.  Assigning to a slice keeps the length, and the
methods that name positions refuse positions that do not exist (`list.insert` would move them to the end). -/
def pyDo : PyOp T → List T → Option (List T × List T)
  | .get i, l => do
    let p ← pyIndex l.length i
    let x ← l[p]?
    some ([x], l)
  | .getSlice s, l => if s.step = 0 then none else some ((s.positions l.length).filterMap (l[·]?), l)
  | .set i v, l => do
    let p ← pyIndex l.length i
    some ([], l.set p v)
  | .setSlice s vs, l =>
    if s.step = 0 ∨ (s.positions l.length).length ≠ vs.length then none else some ([], putAll (s.positions l.length) vs l)
  | .insert p v, l => if p ≤ l.length then some ([], l.insertIdx p v) else none
  | .erase p, l => if p < l.length then some ([], l.eraseIdx p) else none
  | .eraseRange a b, l => if a ≤ b ∧ b ≤ l.length then some ([], l.take a ++ l.drop b) else none
  | .append v, l => some ([], l ++ [v])
  | .pop, l => do
    let x ← l.getLast?
    some ([x], l.dropLast)
  | .popAt p, l => do
    let x ← l[p]?
    some ([x], l.eraseIdx p)
  | .clear, _ => some ([], [])

/-- A history of operations: what each returned, and the sequence in the end.  `none` if one raised an exception. -/
def pyDoAll : List (PyOp T) → List T → Option (List (List T) × List T)
  | [], l => some ([], l)
  | o :: os, l => do
    let (r, l') ← pyDo o l
    let (rs, l'') ← pyDoAll os l'
    some (r :: rs, l'')

end Spec
end QuantiT
