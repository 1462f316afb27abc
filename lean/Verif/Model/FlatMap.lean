import Verif.Base
import Mathlib.Order.Defs.LinearOrder
/-
`flat_map` — /repo/include/blockTensor/flat_map.h.

The container is its `content` vector (flat_map.h:745), a list of (key, value) pairs.  Keys form a linear
order whose `<` is the comparator and whose `=` is the `!=` used on keys.  Iterators are positions.
Not modelled: allocation, capacity (except the test of the rvalue merge), aliasing of the arguments with
the container, and comparators that are not linear orders.
`std::lower_bound`/`std::upper_bound` are modelled by their contract on a partitioned range.
-/
namespace QuantiT

/-- The `content` vector. -/
abbrev FM (K V : Type _) := List (K × V)

namespace FM
variable {K V : Type _} [LinearOrder K]

/-- `std::lower_bound(l.begin(), l.end(), k, comp)`: position of the first element not less than `k`. -/
def lowerBound (l : FM K V) (k : K) : Nat := (l.takeWhile fun e => decide (e.1 < k)).length

/-- `std::upper_bound(l.begin(), l.end(), k, comp)`: position of the first element greater than `k`. -/
def upperBound (l : FM K V) (k : K) : Nat := (l.takeWhile fun e => !decide (k < e.1)).length

/-- `content.insert(position, x)` / `content.emplace(position, x)`. -/
def insertAt (l : FM K V) (i : Nat) (x : K × V) : FM K V := l.take i ++ x :: l.drop i

/-- `at(key)`, flat_map.h:227-235. -/
def at? (m : FM K V) (k : K) : Res V :=
  match m[lowerBound m k]? with
  | none => Res.throw .outOfRange
  | some e => if k < e.1 then Res.throw .outOfRange else .ok e.2

/-- `operator[](key)`, flat_map.h:236-243; returns the container and the position referred to.
`dflt` is `mapped_type()`. -/
def index (dflt : V) (m : FM K V) (k : K) : FM K V × Nat :=
  let i := lowerBound m k
  match m[i]? with
  | none => (insertAt m i (k, dflt), i)
  | some e => if k < e.1 then (insertAt m i (k, dflt), i) else (m, i)

/-- Assignment through the reference returned by `operator[]`, `m[k] = v`. -/
def indexAssign (dflt : V) (m : FM K V) (k : K) (v : V) : FM K V :=
  let (m', i) := index dflt m k
  m'.set i (k, v)

/-- `find(k)`, flat_map.h:672-680: a position, or `m.length` for `end()`. -/
def find (m : FM K V) (k : K) : Nat :=
  let i := lowerBound m k
  match m[i]? with
  | none => m.length
  | some e => if k < e.1 then m.length else i

/-- `contains(k)`/`count(k)`, flat_map.h:681-682. -/
def contains (m : FM K V) (k : K) : Bool := decide (find m k ≠ m.length)

/-- `insert(value)`, flat_map.h:267-294: container, position, success flag. -/
def insert (m : FM K V) (k : K) (v : V) : FM K V × Nat × Bool :=
  let i := lowerBound m k
  match m[i]? with
  | none => (insertAt m i (k, v), i, true)
  | some e => if e.1 ≠ k then (insertAt m i (k, v), i, true) else (m, i, false)

/-- `emplace(args...)`, flat_map.h:495-507.  Modelled as written: like `insert_or_assign` and `try_emplace` it assigns a content iterator
to an iterator whose constructor is explicit, which a compiler may refuse when the member is used. -/
def emplace (m : FM K V) (k : K) (v : V) : FM K V × Nat × Bool :=
  let i := lowerBound m k
  match m[i]? with
  | none => (insertAt m i (k, v), i, true)
  | some e => if k < e.1 then (insertAt m i (k, v), i, true) else (m, i, false)

/-- `use_hint(const_iterator, key) const`, flat_map.h:753-762 (the overload every hinted method
resolves to).  `h = m.length` is `end()`; a position beyond that is not an iterator of the container. -/
def useHint (m : FM K V) (h : Nat) (k : K) : Res (Nat × Nat) :=
  if m.length = 0 then .ok (0, 0)
  else
    let h' := if h = m.length then h - 1 else h
    match m[h']? with
    | none => Res.ub
    | some e => .ok (if e.1 < k then h' else 0, if k < e.1 then m.length else h' + 1)

/-- `std::lower_bound(first, last, key, comp)` on a sub-range of positions. -/
def lowerBoundIn (m : FM K V) (first last : Nat) (k : K) : Nat :=
  first + lowerBound ((m.take last).drop first) k

/-- `insert(hint, value)`, flat_map.h:295-318. -/
def insertHint (m : FM K V) (h : Nat) (k : K) (v : V) : Res (FM K V × Nat) := do
  let (first, last) ← useHint m h k
  let i := lowerBoundIn m first last k
  match m[i]? with
  | none => .ok (insertAt m i (k, v), i)
  | some e => if e.1 ≠ k then .ok (insertAt m i (k, v), i) else .ok (m, i)

/-- `emplace(hint, args...)`, flat_map.h:508-529.  The returned iterator is singular when nothing is
inserted (`none`). -/
def emplaceHint (m : FM K V) (h : Nat) (k : K) (v : V) : Res (FM K V × Option Nat × Bool) := do
  let (first, last) ← useHint m h k
  let i := lowerBoundIn m first last k
  match m[i]? with
  | none => .ok (insertAt m i (k, v), some i, true)
  | some e => if k < e.1 then .ok (insertAt m i (k, v), some i, true) else .ok (m, none, false)

/-- `insert_or_assign(k, obj)`, flat_map.h:427-458: dereferences the lower bound without an end test. -/
def insertOrAssign (m : FM K V) (k : K) (v : V) : Res (FM K V × Nat × Bool) :=
  let i := lowerBound m k
  match m[i]? with
  | none => Res.ub
  | some e => if k < e.1 then .ok (insertAt m i (k, v), i, true) else .ok (m.set i (k, v), i, false)

/-- `try_emplace(k, args...)`, flat_map.h:531-554: same missing end test. -/
def tryEmplace (m : FM K V) (k : K) (v : V) : Res (FM K V × Nat × Bool) :=
  let i := lowerBound m k
  match m[i]? with
  | none => Res.ub
  | some e => if k < e.1 then .ok (insertAt m i (k, v), i, true) else .ok (m, i, false)

/-- `erase(pos)`, flat_map.h:582-583. -/
def erasePos (m : FM K V) (i : Nat) : Res (FM K V) :=
  if i < m.length then .ok (m.eraseIdx i) else Res.ub

/-- `erase(first, last)`, flat_map.h:584. -/
def eraseRange (m : FM K V) (i j : Nat) : Res (FM K V) :=
  if i ≤ j ∧ j ≤ m.length then .ok (m.take i ++ m.drop j) else Res.ub

/-- `erase(key)`, flat_map.h:585-594: `if (comp(*it, k)) return 0;` tests the wrong order. -/
def eraseKey (m : FM K V) (k : K) : Res (FM K V × Nat) :=
  let i := lowerBound m k
  match m[i]? with
  | none => Res.ub
  | some e => if e.1 < k then .ok (m, 0) else .ok (m.eraseIdx i, 1)

/-- `lower_bound(k)`, flat_map.h:693-706. -/
def lowerBoundMethod (m : FM K V) (k : K) : Res Nat :=
  let i := lowerBound m k
  match m[i]? with
  | none => Res.ub
  | some e => .ok (if k < e.1 then m.length else i)

/-- `upper_bound(k)`, flat_map.h:707-720. -/
def upperBoundMethod (m : FM K V) (k : K) : Res Nat :=
  let i := upperBound m k
  match m[i]? with
  | none => Res.ub
  | some e => .ok (if e.1 < k then m.length else i)

/-! ### Removal of duplicates -/

/-- `*l = (l->first, collision result)` folded over the rest of a group, flat_map.h:785. -/
def collide (col : K × V → K × V → V) (rep : K × V) (grp : List (K × V)) : K × V :=
  grp.foldl (fun r x => (r.1, col r x)) rep

/-- The loop of `filter_unique`, flat_map.h:783-792, on positions `l`, `first`, `second` of the array.
Returns the array and the final `l`.  `fuel` bounds the iterations (never exhausted, see
`C08_filter_unique`). `swap(*l, *second)` is two writes. -/
def filterLoop (col : K × V → K × V → V) : Nat → FM K V → (l first second : Nat) → Res (FM K V × Nat)
  | 0, _, _, _, _ => Res.ub
  | fuel + 1, arr, l, first, second =>
    if first = arr.length then .ok (arr, l)
    else match arr[l]? with
      | none => Res.ub
      | some rep =>
        let rep' := collide col rep ((arr.take second).drop (first + 1))
        let arr1 := arr.set l rep'
        let l1 := l + 1
        if second = arr.length then .ok (arr1, l1)
        else match arr1[l1]?, arr1[second]? with
          | some x, some y =>
            let arr2 := (arr1.set l1 y).set second x
            filterLoop col fuel arr2 l1 second (second + upperBound (arr2.drop second) y.1)
          | _, _ => Res.ub

/-- `filter_unique(begin, end, collision)` followed by the `resize` every caller does,
flat_map.h:776-794 and 159-160.  The initial `*l` is formally an access to `*end()` for an empty range. -/
def filterUnique (col : K × V → K × V → V) (arr : FM K V) : Res (FM K V) :=
  match arr with
  | [] => Res.ub
  | x :: _ => do
    let (arr', l) ← filterLoop col (arr.length + 1) arr 0 0 (upperBound arr x.1)
    .ok (arr'.take l)

/-- What `std::sort` guarantees: `s` is a permutation of `l` in non-decreasing key order.  Which one, when
keys are repeated, is not specified. -/
def IsSortOf (s l : FM K V) : Prop := s.Perm l ∧ s.Pairwise (fun a b => ¬ b.1 < a.1)

/-- Construction from an unsorted range or initializer list, flat_map.h:153-195: sort, filter, shrink.
`s` is the outcome of the sort. -/
def ofRange (s : FM K V) : Res (FM K V) := filterUnique (fun l _ => l.2) s

/-- Construction from the content type, flat_map.h:151-152: sort only. -/
def ofContent (s : FM K V) : FM K V := s

/-- `operator=(initializer_list)`, flat_map.h:218-223: the list is taken as the content, neither sorted nor
filtered.  `content.insert(first, last)` lacks the position that `std::vector` wants, so that the member does not compile when
it is used; modelled as meant. -/
def assignInitList (l : FM K V) : FM K V := l

/-- `insert(first, last, collision)` for an unsorted range, flat_map.h:331-341: append, sort (outcome `s`),
filter. -/
def insertUnsorted (col : K × V → K × V → V) (s : FM K V) : Res (FM K V) := filterUnique col s

/-! ### In-place merge of a sorted range -/

/-- The loop counting the source keys absent from the container, flat_map.h:358-367.
Arguments: container, remaining source, `look`, `n1`. -/
def countNew (m : FM K V) : FM K V → Nat → Nat → Nat
  | [], _, n1 => n1
  | x :: xs, look, n1 =>
    let look' := look + lowerBound (m.drop look) x.1
    match m[look']? with
    | none => n1
    | some e => countNew m xs look' (if x.1 < e.1 then n1 else n1 - 1)

/-- Memory of the container during the merge: `none` is a moved-from or freshly resized cell, whose
content is unspecified; reading one counts as undefined behaviour. -/
abbrev Cells (K V : Type _) := List (Option (K × V))

/-- Read one cell. -/
def readCell (c : Cells K V) (i : Nat) : Res (K × V) :=
  match c[i]? with
  | some (some x) => .ok x
  | _ => Res.ub

/-- Read the cells of `[a, b)`. -/
def readRange (c : Cells K V) (a b : Nat) : Res (FM K V) :=
  ((c.take b).drop a).mapM fun o => match o with
    | some x => .ok x
    | none => Res.ub

/-- `std::copy_backward(xs, dstEnd)`: the cells `[dstEnd - |xs|, dstEnd)` are overwritten. -/
def copyBackward (c : Cells K V) (xs : FM K V) (dstEnd : Nat) : Res (Cells K V) :=
  if xs.length ≤ dstEnd ∧ dstEnd ≤ c.length then
    .ok (c.take (dstEnd - xs.length) ++ xs.map some ++ c.drop dstEnd)
  else Res.ub

/-- `std::move_backward` of the cells `[a, b)` to end at `dstEnd`: the sources become unspecified, then the
destination is overwritten. -/
def moveBackward (c : Cells K V) (a b dstEnd : Nat) : Res (Cells K V) := do
  let xs ← readRange c a b
  copyBackward (c.take a ++ List.replicate (b - a) none ++ c.drop b) xs dstEnd

/-- Loop variables of the merge: cells, `last`, `look`, `move_to_end` (`first` stays 0). -/
structure MState (K V : Type _) where
  cells : Cells K V
  last : Nat
  look : Nat
  mte : Nat

/-- Part A of an iteration, flat_map.h:379-396: copy the source elements above `*(look-1)`, and treat a
collision with `*(look-1)`. -/
def mergePartA (f : V → V → V) (g : V → V) (src : FM K V) (s : MState K V) : Res (MState K V) := do
  let top ← readCell s.cells (s.look - 1)
  let S := src.take s.last
  let la := lowerBound S top.1
  match S[la]? with
  | none =>
    -- la == last: nothing to copy, no collision
    .ok ⟨s.cells, la, s.look, s.mte⟩
  | some e =>
    if top.1 < e.1 then do
      -- no collision: copy [la, last) (383) and apply nocollision to the copies (387)
      let moved := S.drop la
      let cells1 ← copyBackward s.cells (moved.map fun e => (e.1, g e.2)) s.mte
      .ok ⟨cells1, la, s.look, s.mte - moved.length⟩
    else do
      let moved := S.drop (la + 1)
      let cells1 ← copyBackward s.cells (moved.map fun e => (e.1, g e.2)) s.mte
      -- lines 388-394
      let mte' := s.mte - moved.length - 1
      let look' := s.look - 1
      let x ← readCell cells1 look'
      let c' := if mte' ≠ look' then (cells1.set look' none).set mte' (some x) else cells1
      let y ← readCell c' mte'
      .ok ⟨c'.set mte' (some (y.1, f y.2 e.2)), la, look', mte'⟩

/-- Part B of an iteration, flat_map.h:400-416: move the own elements not below `*(last-1)`, and treat a
collision of `*(last-1)` with the lowest moved one. -/
def mergePartB (f : V → V → V) (src : FM K V) (s : MState K V) : Res (MState K V) :=
  match src[s.last - 1]? with
  | none => Res.ub
  | some key => do
    let own ← readRange s.cells 0 s.look
    let lb := lowerBound own key.1
    let cells3 ← (if s.mte ≠ s.look then moveBackward s.cells lb s.look s.mte else .ok s.cells : Res (Cells K V))
    let mte3 := s.mte - (s.look - lb)
    let cell ← readCell cells3 mte3
    if key.1 < cell.1 then .ok ⟨cells3, s.last, lb, mte3⟩
    else .ok ⟨cells3.set mte3 (some (cell.1, f cell.2 key.2)), s.last - 1, lb, mte3⟩

/-- The merge loop, flat_map.h:376-417.  `fuel` bounds the iterations (never exhausted). -/
def mergeLoop (f : V → V → V) (g : V → V) (src : FM K V) : Nat → MState K V → Res (MState K V)
  | 0, _ => Res.ub
  | fuel + 1, s =>
    if s.look ≠ 0 ∧ s.last ≠ 0 then do
      let s1 ← mergePartA f g src s
      -- the `break` of line 399
      if s1.last = 0 then .ok s1
      else do
        let s2 ← mergePartB f src s1
        mergeLoop f g src fuel s2
    else .ok s

/-- Apply `nocollision` to the cells `[0, n)`, flat_map.h:424. -/
def applyNoCollision (g : V → V) (c : Cells K V) (n : Nat) : Res (Cells K V) := do
  let xs ← readRange c 0 n
  .ok (xs.map (fun e => some (e.1, g e.2)) ++ c.drop n)

/-- `insert(first, last, collision, nocollision)` for a sorted range, flat_map.h:350-425; also
`merge(const flat_map&, collision, nocollision)`, flat_map.h:606-612.
`collision(a, b)` is `a = f a b`, `nocollision(x)` is `x = g x`. -/
def mergeInsert (f : V → V → V) (g : V → V) (m src : FM K V) : Res (FM K V) := do
  let n1 := countNew m src 0 src.length
  let s0 : MState K V := ⟨m.map some ++ List.replicate n1 none, src.length, m.length, m.length + n1⟩
  let s ← mergeLoop f g src (m.length + src.length + 1) s0
  -- assert of lines 420-422
  if s.last = 0 ∨ s.mte = s.last then do
    let c1 ← copyBackward s.cells (src.take s.last) s.mte
    let c2 ← applyNoCollision g c1 s.mte
    readRange c2 0 c2.length
  else Res.ub

/-- `merge(flat_map&& source, collision, nocollision)`, flat_map.h:619-643. `cap` is `source.capacity()`.
When the source has room for both, the contents are exchanged and the roles swapped (the collision
functor swaps its arguments back). -/
def mergeRvalue (f : V → V → V) (g : V → V) (cap : Nat) (m src : FM K V) : Res (FM K V) :=
  if cap ≥ src.length + m.length then mergeInsert (fun a c => f c a) g src m
  else mergeInsert f g m src

/-- `clear()`, flat_map.h:264. -/
def clear (_ : FM K V) : FM K V := []

/-- One call on the container. -/
inductive Op (K V : Type _) where
  | insert (k : K) (v : V)
  | emplace (k : K) (v : V)
  /-- `m[k]` read only -/
  | index (dflt : V) (k : K)
  /-- `m[k] = v` -/
  | indexAssign (dflt : V) (k : K) (v : V)
  | insertOrAssign (k : K) (v : V)
  | tryEmplace (k : K) (v : V)
  | insertHint (h : Nat) (k : K) (v : V)
  | emplaceHint (h : Nat) (k : K) (v : V)
  | insertRange (xs : FM K V)
  | merge (f : V → V → V) (g : V → V) (src : FM K V)
  | erasePos (i : Nat)
  | eraseRange (i j : Nat)
  | eraseKey (k : K)
  | clear

/-- `Step m op r`: calling `op` on the container `m` can end in `r`.  The only non-determinism is the
order in which `std::sort` leaves equal keys (`insertRange`, the three-argument `insert(first, last, collision)` of
flat_map.h:331-341 with a collision that keeps the first value; `insert(first, last)` goes to the version for sorted ranges). -/
def Step (m : FM K V) : Op K V → Res (FM K V) → Prop
  | .insert k v, r => r = .ok (insert m k v).1
  | .emplace k v, r => r = .ok (emplace m k v).1
  | .index d k, r => r = .ok (index d m k).1
  | .indexAssign d k v, r => r = .ok (indexAssign d m k v)
  | .insertOrAssign k v, r => r = (insertOrAssign m k v).map (·.1)
  | .tryEmplace k v, r => r = (tryEmplace m k v).map (·.1)
  | .insertHint h k v, r => r = (insertHint m h k v).map (·.1)
  | .emplaceHint h k v, r => r = (emplaceHint m h k v).map (·.1)
  | .insertRange xs, r => ∃ s, IsSortOf s (m ++ xs) ∧ r = insertUnsorted (fun l _ => l.2) s
  | .merge f g src, r => r = mergeInsert f g m src
  | .erasePos i, r => r = erasePos m i
  | .eraseRange i j, r => r = eraseRange m i j
  | .eraseKey k, r => r = (eraseKey m k).map (·.1)
  | .clear, r => r = .ok (clear m)

/-- A run of calls; it stops at the first fault. -/
inductive Run (ok : FM K V → Op K V → Prop) : FM K V → List (Op K V) → Res (FM K V) → Prop
  | nil (m) : Run ok m [] (.ok m)
  | fault {m op ops e} : ok m op → Step m op (.error e) → Run ok m (op :: ops) (.error e)
  | step {m op ops m' r} : ok m op → Step m op (.ok m') → Run ok m' ops r → Run ok m (op :: ops) r

/-- `operator==` on two containers, flat_map.h:797-815. -/
def beq [DecidableEq V] (a b : FM K V) : Bool :=
  if a.length ≠ b.length then false else (List.zipWith (fun x y => decide (x = y)) a b).all id

end FM
end QuantiT
