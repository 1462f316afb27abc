import Verif.Model.Reshape
import Verif.Model.Tensordot
/-
Views, shapes made of parts of tensors, identity — /repo/sources/btensor.cpp:492-762, 1937-1946, 2435-2458,
2592-2644 and /repo/include/blockTensor/btensor.h:1001-1044.
Same simplifications as Model/BTensor.lean.
-/
namespace QuantiT
namespace BT
open Spec
variable {G R : Type}

/-! ### `shape_from(dims)` -/

/-- The rule computed by `shape_from`, btensor.cpp:526-551.  The section of a fixed position is found by the scan;
a negative entry scans nothing (section 0).  The charge is read from the packed array even when it is not used. -/
def shapeFromRule [AddCommGroup G] : Shape G → List Int → G → Res G
  | d :: ds, a :: as, r =>
    let b := if a < 0 then 0 else (decompose1 d a.toNat).1
    match ((d :: ds).flatten)[b]? with
    | none => Res.ub
    | some s => shapeFromRule ds as (if a < 0 then r else r + -s.2)
  | _, _, r => .ok r

/-- Section counts of the dimensions with a negative entry, btensor.cpp:526-534. -/
def negCounts (shape : Shape G) (dims : List Int) : List Nat :=
  (shape.zip dims).filterMap fun da => if da.2 < 0 then some da.1.length else none

/-- Sections of the dimensions with entry -1, btensor.cpp:564-587. -/
def freeSections (shape : Shape G) (dims : List Int) : Dim G :=
  (shape.zip dims).flatMap fun da => if da.2 = -1 then da.1 else []

/-- Reading a packed array with the given section counts. -/
def unpack {α : Type} : List Nat → List α → List (List α)
  | [], _ => []
  | n :: ns, l => l.take n :: unpack ns (l.drop n)

/-- `shape_from(dims)`, btensor.cpp:492-583.  The packed arrays are allocated for all negative entries (with size 0
and neutral charge) but filled only for entries -1. -/
def shapeFrom [AddCommGroup G] (t : BT G R) (dims : List Int) : Res (BT G R) :=
  if dims.length ≠ t.shape.length then Res.throw .invalidArgument
  else if ¬ (dims.zip (sizes t.shape)).all (fun as => decide (as.1 < (as.2 : Int)) || decide (as.1 = -1)) then
    Res.throw .invalidArgument
  else do
    let rule ← shapeFromRule t.shape dims t.rule
    let counts := negCounts t.shape dims
    let free := freeSections t.shape dims
    .ok ⟨unpack counts (free ++ List.replicate (counts.sum - free.length) (0, 0)), rule, []⟩

/-! ### Shapes of several tensors -/

/-- `shape_from({a, b, ...})`, btensor.h:1001-1014; the first element of an empty list does not exist. -/
def shapeFromList [AddCommGroup G] [DecidableEq G] : List (BT G R) → Res (BT G R)
  | [] => Res.ub
  | a :: l => l.foldlM tensorProductShape ⟨a.shape, a.rule, []⟩

/-- One dimension of `rank_preserving_shape`, btensor.cpp:591-604: the section chosen there (`none` for -1) and the
number of the dimension. -/
def rankStep [AddCommGroup G] [DecidableEq G] (t out : BT G R) (br : Option Nat × Nat) : Res (BT G R) :=
  match br.1 with
  | none => do
    let s ← shapeFrom t ((List.replicate t.shape.length (0 : Int)).set br.2 (-1))
    tensorProductShape out s
  | some b =>
    match ((t.shape.drop br.2).flatten)[b]? with
    | none => Res.ub
    | some sec => tensorProductShape out ⟨[[(1, sec.2)]], 0, []⟩

/-- `rank_preserving_shape`, btensor.cpp:585-607. -/
def rankPreservingShape [AddCommGroup G] [DecidableEq G] (f : List (Option Nat)) (t : BT G R) : Res (BT G R) := do
  let out ← (f.zip (List.range f.length)).foldlM (rankStep t) ⟨[], 0, []⟩
  setRule out t.rule

/-! ### Views -/

/-- `to_block_basis`, btensor.cpp:609-651: the section (`none` for -1) and the position within it (`none` is a full
slice). -/
def toBlockBasis : Shape G → List Int → List (Option Nat × Option Int)
  | d :: ds, a :: as =>
    (if a = -1 then (none, none)
     else if a < 0 then (some 0, some a)
     else (some (decompose1 d a.toNat).1, some ((decompose1 d a.toNat).2 : Int))) :: toBlockBasis ds as
  | _, _ => []

/-- The filter of `basic_create_view`, btensor.cpp:672-688: runs while there is a place left in the output index, so
what follows the last free dimension is not looked at.  `cur` is the value at the place being written. -/
def viewFilter : Nat → Nat → List Nat → List (Option Nat) → Bool × List Nat
  | 0, _, _, _ => (true, [])
  | r + 1, _, i :: is, f :: fs =>
    match f with
    | none => let q := viewFilter r 0 is fs; (q.1, i :: q.2)
    | some b => if i = b then viewFilter (r + 1) i is fs else (false, i :: List.replicate r 0)
  | r + 1, cur, _, _ => (true, cur :: List.replicate r 0)

/-- A torch index along one dimension: negative positions count from the end; out of range throws. -/
def wrapIndex (n : Nat) (i : Int) : Res Nat :=
  let j := if i < 0 then i + n else i
  if 0 ≤ j ∧ j < n then .ok j.toNat else Res.throw .runtimeError

/-- Positions chosen by a list of torch indices on a tensor of the given sizes; too many indices throw, missing
ones are full slices. -/
def wrapIndices : List (Option Int) → List Nat → Res (List (Option Nat))
  | [], ds => .ok (ds.map fun _ => none)
  | _ :: _, [] => Res.throw .runtimeError
  | none :: es, _ :: ds => do let r ← wrapIndices es ds; .ok (none :: r)
  | some i :: es, n :: ds => do
    let j ← wrapIndex n i
    let r ← wrapIndices es ds
    .ok (some j :: r)

/-- The multi-index with the chosen positions filled in. -/
def fillIdx : List (Option Nat) → List Nat → List Nat
  | none :: fs, o :: os => o :: fillIdx fs os
  | some i :: fs, os => i :: fillIdx fs os
  | _, _ => []

/-- The components that are not chosen. -/
def freeOf {α : Type} : List (Option Nat) → List α → List α
  | none :: fs, x :: xs => x :: freeOf fs xs
  | some _ :: fs, _ :: xs => freeOf fs xs
  | _, _ => []

/-- `tensor.index(element)`. -/
def indexEl (el : List (Option Int)) (b : Blk R) : Res (Blk R) := do
  let w ← wrapIndices el b.dims
  .ok ⟨freeOf w b.dims, fun o => b.f (fillIdx w o)⟩

/-- The loop over the blocks of `basic_create_view`, btensor.cpp:690-698. -/
def viewLoop (rank : Nat) (f : List (Option Nat)) (el : List (Option Int)) :
    FM (List Nat) (Blk R) → FM (List Nat) (Blk R) → Res (FM (List Nat) (Blk R))
  | m, [] => .ok m
  | m, kb :: rest => do
    let q := viewFilter rank 0 kb.1 f
    if q.1 then do
      let b ← indexEl el kb.2
      let r ← FM.insertHint m m.length q.2 b
      viewLoop rank f el r.1 rest
    else viewLoop rank f el m rest

/-- `basic_create_view(dims, preserve_rank)`, btensor.cpp:661-706. -/
def basicCreateView [AddCommGroup G] [DecidableEq G] (t : BT G R) (dims : List Int) (preserveRank : Bool) :
    Res (BT G R) := do
  let out ← shapeFrom t dims
  let fe := toBlockBasis t.shape dims
  let bl ← viewLoop out.shape.length (fe.map Prod.fst) (fe.map Prod.snd) [] t.blocks
  let out := { out with blocks := bl }
  if preserveRank then do
    let x ← rankPreservingShape (fe.map Prod.fst) t
    reshapeAs true out x
  else .ok out

/-! ### Writing at fixed positions -/

/-- `output_index` of `impl_basic_index_put_`, btensor.cpp:715-726: the next component of the value's index is read in
every round, also when it is not used. -/
def outputIndex : List (Option Nat) → List Nat → Res (List Nat)
  | [], _ => .ok []
  | _ :: _, [] => Res.ub
  | none :: fs, v :: vs => do let r ← outputIndex fs vs; .ok (v :: r)
  | some b :: fs, v :: vs => do let r ← outputIndex fs (v :: vs); .ok (b :: r)

/-- The chosen positions of `o` are those of `w`. -/
def matchesIdx : List (Option Nat) → List Nat → Bool
  | none :: fs, _ :: os => matchesIdx fs os
  | some i :: fs, o :: os => decide (i = o) && matchesIdx fs os
  | _, _ => true

/-- `tensor.index_put_(element, v)`.  Broadcasting is not modelled: the sizes must agree. -/
def indexPutEl (b : Blk R) (el : List (Option Int)) (v : Blk R) : Res (Blk R) := do
  let w ← wrapIndices el b.dims
  if v.dims = freeOf w b.dims then
    .ok ⟨b.dims, fun o => if matchesIdx w o then v.f (freeOf w o) else b.f o⟩
  else Res.throw .runtimeError

/-- One block of `impl_basic_index_put_`, btensor.cpp:727-741.  The sizes are read from the packed array. -/
def putOnce [Zero R] (f : List (Option Nat)) (el : List (Option Int)) (t : BT G R) (kb : List Nat × Blk R) :
    Res (BT G R) := do
  let k ← outputIndex f kb.1
  let bl ← (if FM.contains t.blocks k then .ok t.blocks else do
    let sz ← blockSizes t k
    .ok (FM.insert t.blocks k ⟨sz, fun _ => 0⟩).1 : Res (FM (List Nat) (Blk R)))
  let old ← FM.at? bl k
  let new ← indexPutEl old el kb.2
  .ok { t with blocks := bl.set (FM.find bl k) (k, new) }

/-- `basic_index_put_(dims, const btensor&)`, btensor.cpp:750-762. -/
def basicIndexPut [AddCommGroup G] [DecidableEq G] [Zero R] (t : BT G R) (dims : List Int) (value : BT G R) :
    Res (BT G R) := do
  let reduced ← shapeFrom t dims
  addCheck reduced value
  let fe := toBlockBasis t.shape dims
  value.blocks.foldlM (putOnce (fe.map Prod.fst) (fe.map Prod.snd)) t

/-! ### Identity -/

/-- `torch::eye(n, m)`. -/
def eyeBlk [Zero R] [One R] (n m : Nat) : Blk R := ⟨[n, m], fun o => if o.getD 0 0 = o.getD 1 0 then 1 else 0⟩

/-- `eye_like(shape)`, btensor.cpp:2445-2459. -/
def eyeLike [AddCommGroup G] [DecidableEq G] [Zero R] [One R] (t : BT G R) : Res (BT G R) :=
  match t.shape with
  | [d0, d1] =>
    (List.range (min d0.length d1.length)).foldlM (fun (out : BT G R) i => do
      let ok ← conserves out [i, i]
      if ok then do
        let sz ← blockSizes out [i, i]
        .ok { out with blocks := FM.indexAssign undef out.blocks [i, i] (eyeBlk (sz.getD 0 0) (sz.getD 1 0)) }
      else .ok out) ⟨t.shape, t.rule, []⟩
  | _ => Res.throw .invalidArgument

/-- `eye(shape)`, btensor.cpp:2435-2444; the conjugation acts on a tensor without blocks. -/
def eye [AddCommGroup G] [DecidableEq G] [Zero R] [One R] (shape : Shape G) : Res (BT G R) :=
  match shape with
  | (_ :: _) :: _ =>
    if shape.length > 2 then Res.throw .invalidArgument
    else do
      let t : BT G R := ⟨shape, 0, []⟩
      let t ← (if shape.length = 1 then shapeFromList [t, conj id t] else .ok t : Res (BT G R))
      eyeLike t
  | _ => Res.ub

/-! ### Rule of a dense matrix -/

/-- `quantitiesi`, btensor.cpp:2599-2613: the charge of the section containing an element; past the last section it
reads what follows. -/
def qttAt (d : Dim G) (following : Dim G) (e : Nat) : Res G :=
  match (d ++ following)[(decompose1 d e).1]? with
  | none => Res.ub
  | some s => .ok s.2

/-- One element of the scan of `find_selection_rule`, btensor.cpp:2626-2640.  The column `matmul(state)` of a unit
vector is taken to be the column of the matrix; `sig` is the test `|x| > cutoff`. -/
def ruleStep [AddCommGroup G] [DecidableEq G] (sig : R → Bool) (v : Blk R) (d0 d1 : Dim G)
    (st : Bool × G) (ij : Nat × Nat) : Res (Bool × G) :=
  if sig (v.f [ij.2, ij.1]) then do
    let q1 ← qttAt d0 d1 ij.2
    let q2 ← qttAt d1 [] ij.1
    if st.1 then .ok (false, q1 + q2)
    else if st.2 ≠ q1 + q2 then Res.throw .logicError
    else .ok st
  else .ok st

/-- `find_selection_rule`, btensor.cpp:2592-2644: columns outside, rows inside. -/
def findSelectionRule [AddCommGroup G] [DecidableEq G] (sig : R → Bool) (v : Blk R) (shape : Shape G) : Res G :=
  match v.dims, shape with
  | [n, m], [d0, d1] => do
    let st ← ((List.range m).flatMap fun i => (List.range n).map fun j => (i, j)).foldlM (ruleStep sig v d0 d1) (true, 0)
    .ok st.2
  | _, _ => Res.throw .invalidArgument

end BT
end QuantiT
