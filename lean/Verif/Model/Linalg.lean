import Verif.Model.View
/-
Factorisations of block tensors, /repo/sources/btensor_linalg.cpp:1-534.

Same simplifications as Model/BTensor.lean.  The charges are linearly ordered.  The dense factorisations of torch are parameters.
Iterators moved past the end of a list (btensor_linalg.cpp:229, 244) are never read and are not modelled.
-/
namespace QuantiT
namespace BT
open Spec
variable {G R : Type}

/-- A stored block with the charges of its sections in the last two dimensions. -/
structure Tagged (G R : Type) where
  row : G
  col : G
  key : List Nat
  blk : Blk R

/-- Reading the charges of a block, `row_qtt[a.first[r - 2]]` and `col_qtt[a.first[r - 1]]`, btensor_linalg.cpp:33-34, 57-60;
read once per block instead of once per comparison.  Out of range is undefined behaviour. -/
def tagBlock (shape : Shape G) (kb : List Nat × Blk R) : Res (Tagged G R) :=
  let r := shape.length
  if r < 2 then Res.ub
  else
    match shape[r - 2]?, shape[r - 1]?, kb.1[r - 2]?, kb.1[r - 1]? with
    | some dr, some dc, some i, some j =>
      match dr[i]?, dc[j]? with
      | some x, some y => .ok ⟨x.2, y.2, kb.1, kb.2⟩
      | _, _ => Res.ub
    | _, _, _, _ => Res.ub

/-- The comparison of `reorder_by_cvals`, btensor_linalg.cpp:62-64. -/
def tagLt [LinearOrder G] (a b : Tagged G R) : Bool :=
  decide (a.row < b.row) || (decide (a.row = b.row) && decide (a.col < b.col))

/-- `reorder_by_cvals`, btensor_linalg.cpp:30-67: a stable sort. -/
def reorder [LinearOrder G] (t : BT G R) : Res (List (Tagged G R)) := do
  let l ← t.blocks.mapM (tagBlock t.shape)
  .ok (l.insertionSort fun a b => tagLt b a = false)

/-- `equal_index` and `equal_c_vals` of `compact_dense`, btensor_linalg.cpp:207-227. -/
def sameMatrix [DecidableEq G] (a b : Tagged G R) : Bool :=
  decide (a.key.take (a.key.length - 2) = b.key.take (b.key.length - 2)) && decide (a.col = b.col) && decide (a.row = b.row)

/-- The loop of `compact_dense` that cuts the sorted blocks, btensor_linalg.cpp:236-248: a range ends where a block does not
belong with the first block of the range.  `cur` is the range so far, backwards. -/
def cutGo {α : Type} (same : α → α → Bool) (first : α) (cur : List α) : List α → List (List α)
  | [] => [cur.reverse]
  | b :: l => if same first b then cutGo same first (b :: cur) l else cur.reverse :: cutGo same b [b] l

/-- The ranges of `compact_dense`. -/
def cutRuns {α : Type} (same : α → α → Bool) : List α → List (List α)
  | [] => []
  | a :: l => cutGo same a [a] l

/-- A block row or column of a dense matrix: section, first position, position past the last. -/
abbrev Span := Nat × Nat × Nat

/-- A dense matrix made of blocks, with the block index in the other dimensions. -/
structure Mat (R : Type) where
  m : Blk R
  other : List Nat
  rows : List Span
  cols : List Span

/-- One block of the first loop of `compact_dense_single`, btensor_linalg.cpp:111-131, state `(cols, col_acc, rows, row_acc,
cur_row)`.  A new column goes to its place in increasing order, a new row to the end. -/
def spanStep (st : List Span × Nat × List Span × Nat × Nat) (a : Tagged G R) : List Span × Nat × List Span × Nat × Nat :=
  let r := a.key.length
  let (cols, ca, rows, ra, cur) := st
  let j := a.key.getD (r - 1) 0
  let i := a.key.getD (r - 2) 0
  let w := a.blk.dims.getD (r - 1) 0
  let h := a.blk.dims.getD (r - 2) 0
  let (cols, ca) :=
    if cols.any (fun s => decide (s.1 = j)) then (cols, ca)
    else (cols.takeWhile (fun s => decide (s.1 < j)) ++ (j, ca, ca + w) :: cols.dropWhile (fun s => decide (s.1 < j)), ca + w)
  if cur ≠ i then (cols, ca, rows ++ [(i, ra, ra + h)], ra + h, i) else (cols, ca, rows, ra, cur)

/-- The slices of one block in the dense matrix, btensor_linalg.cpp:137-142: full in the first dimensions. -/
def putTagged (other : List Nat) (rows cols : List Span) (out : Blk R) (a : Tagged G R) : Res (Blk R) :=
  let r := a.key.length
  match cols.find? (fun s => decide (s.1 = a.key.getD (r - 1) 0)), rows.find? (fun s => decide (s.1 = a.key.getD (r - 2) 0)) with
  | some c, some w => indexPut out ((other.map fun n => (0, n)) ++ [w.2, c.2]) a.blk
  | _, _ => Res.ub

/-- `compact_dense_single`, btensor_linalg.cpp:80-150.  The element type is not modelled: the code makes a matrix of the
default type. -/
def compactSingle [Zero R] : List (Tagged G R) → Res (Mat R)
  | [] => Res.ub
  | a :: l => do
    let r := a.key.length
    let i := a.key.getD (r - 2) 0
    let h := a.blk.dims.getD (r - 2) 0
    let (cols, ca, rows, ra, _) := (a :: l).foldl spanStep ([], 0, [(i, 0, h)], h, i)
    let lead := a.blk.dims.take (r - 2)
    let m ← (a :: l).foldlM (putTagged lead rows cols) ⟨lead ++ [ra, ca], fun _ => 0⟩
    .ok ⟨m, a.key.take (r - 2), rows, cols⟩

/-- `compact_dense`, btensor_linalg.cpp:199-255. -/
def compactDense [LinearOrder G] [Zero R] (t : BT G R) : Res (List (Mat R)) := do
  let l ← reorder t
  (cutRuns sameMatrix l).mapM compactSingle

/-! ### Singular values -/

/-- `bU.index({Ellipsis, slice, Slice()})`: some rows of every matrix. -/
def rowsOf (b : Blk R) (s : Nat × Nat) : Blk R := indexSlices b ((b.dims.map fun n => (0, n)).set (b.dims.length - 2) s)

/-- Assigning several blocks one after the other. -/
def assignAll [AddCommMonoid G] [DecidableEq G] [Zero R] (t : BT G R) (l : List (List Nat × Blk R)) : Res (BT G R) :=
  l.foldlM (fun t kv => blockAssign t kv.1 kv.2) t

/-- Charge of the columns of a matrix, `tensor.section_conserved_qtt(tensor.dim() - 1, get<0>(cols[0]))`,
btensor_linalg.cpp:316, 412. -/
def colCharge (shape : Shape G) (g : Mat R) : Res G :=
  match g.cols with
  | [] => Res.ub
  | s :: _ =>
    match shape[shape.length - 1]? with
    | none => Res.ub
    | some d => match d[s.1]? with
      | none => Res.ub
      | some x => .ok x.2

/-- Rows and columns of a matrix. -/
def matRows (g : Mat R) : Nat := g.m.dims.getD (g.m.dims.length - 2) 0
/-- Number of columns of a matrix. -/
def matCols (g : Mat R) : Nat := g.m.dims.getD (g.m.dims.length - 1) 0

/-- The block indices and values of `U`, `V` and `d`, btensor_linalg.cpp:460-499: twice, undefined tensors first. -/
def factorBlocks [Zero R] (gs : List (Mat R × Blk R)) (spans : Mat R → List Span) : List (List Nat × Blk R) :=
  let ps := gs.zip (List.range gs.length)
  (ps.flatMap fun p => (spans p.1.1).map fun s => (p.1.1.other ++ [s.1, p.2], undef)) ++
  (ps.flatMap fun p => (spans p.1.1).map fun s => (p.1.1.other ++ [s.1, p.2], rowsOf p.1.2 s.2))

/-- The blocks of `d`. -/
def diagBlocks [Zero R] (gs : List (Mat R × Blk R)) : List (List Nat × Blk R) :=
  let ps := gs.zip (List.range gs.length)
  (ps.map fun p => (p.1.1.other ++ [p.2], undef)) ++ (ps.map fun p => (p.1.1.other ++ [p.2], p.1.2))

/-- `svd(tensor, some)`, btensor_linalg.cpp:390-502; the three tensors are filled one after the other.  `fac` stands for
`torch::svd` with the same flag. -/
def svdFull [AddCommGroup G] [LinearOrder G] [Zero R] (fac : Blk R → Blk R × Blk R × Blk R) (t : BT G R) (some_ : Bool) :
    Res (BT G R × BT G R × BT G R) := do
  let n := t.shape.length
  let gs ← compactDense t
  let q ← gs.mapM (colCharge t.shape)
  let right : Dim G := (gs.zip q).map fun p =>
    ((if some_ then min (matCols p.1) (matRows p.1) else max (matCols p.1) (matRows p.1)), p.2)
  let left : Dim G := right.map fun s => (s.1, -s.2)
  let leftD : BT G R := ⟨[left], 0, []⟩
  let rightD : BT G R := ⟨[right], 0, []⟩
  let s0 ← shapeFrom t (List.replicate (n - 2) (-1) ++ [0, 0])
  let d ← shapeFromList [s0, rightD]
  let d ← neutralShape d
  let s1 ← shapeFrom t (List.replicate (n - 1) (-1) ++ [0])
  let u ← shapeFromList [s1, rightD]
  let u ← setRule u t.rule
  let s2 ← shapeFrom t (List.replicate (n - 2) (-1) ++ [0, 0])
  let s2 ← neutralShape s2
  let s3 ← shapeFrom t (List.replicate (n - 1) 0 ++ [-1])
  let v ← shapeFromList [s2, s3, leftD]
  let v ← setRule v 0
  let f := gs.map fun g => (g, fac g.m)
  let u ← assignAll u (factorBlocks (f.map fun p => (p.1, p.2.1)) Mat.rows)
  let v ← assignAll v (factorBlocks (f.map fun p => (p.1, p.2.2.2)) Mat.cols)
  let d ← assignAll d (diagBlocks (f.map fun p => (p.1, p.2.2.1)))
  .ok (u, d, inverseCvals v)

/-- `svd(tensor, split)`, btensor_linalg.cpp:503-534. -/
def svdSplit [AddCommGroup G] [LinearOrder G] [Zero R] (fac : Blk R → Blk R × Blk R × Blk R) (t : BT G R) (split : Nat) :
    Res (BT G R × BT G R × BT G R) := do
  let n := t.shape.length
  let r ← reshape t [split]
  let (ru, d, rv) ← svdFull fac r true
  let su ← shapeFrom t (List.replicate split (-1) ++ List.replicate (n - split) 0)
  let ru' ← shapeFrom ru [0, -1]
  let u ← shapeFromList [su, ru']
  let u ← reshapeAs false ru u
  let sv ← shapeFrom t (List.replicate split 0 ++ List.replicate (n - split) (-1))
  let rv' ← shapeFrom rv [0, -1]
  let v ← shapeFromList [inverseCvals sv, rv']
  let v ← reshapeAs false rv v
  .ok (u, d, v)

/-! ### Eigenvalues -/

/-- `eigh(tensor, upper)`, btensor_linalg.cpp:294-368.  `fac` stands for `torch::linalg::eigh`. -/
def eighFull [AddCommGroup G] [LinearOrder G] [Zero R] (fac : Blk R → Blk R × Blk R) (t : BT G R) : Res (BT G R × BT G R) := do
  let n := t.shape.length
  let gs ← compactDense t
  let q ← gs.mapM (colCharge t.shape)
  let right : Dim G := (gs.zip q).map fun p => (matCols p.1, p.2)
  let rightD : BT G R := ⟨[right], 0, []⟩
  let s0 ← shapeFrom t (List.replicate (n - 2) (-1) ++ [0, 0])
  let d ← shapeFromList [s0, rightD]
  let d ← neutralShape d
  let s1 ← shapeFrom t (List.replicate (n - 1) (-1) ++ [0])
  let c ← (match t.shape[n - 1]? with
    | none => Res.ub
    | some dc => match dc[0]? with
      | none => Res.ub
      | some x => .ok x.2 : Res G)
  let s1 ← shiftRule s1 (-c)
  let u ← shapeFromList [s1, rightD]
  let f := gs.map fun g => (g, fac g.m)
  let u ← assignAll u (factorBlocks (f.map fun p => (p.1, p.2.2)) Mat.rows)
  let d ← assignAll d (diagBlocks (f.map fun p => (p.1, p.2.1)))
  .ok (d, u)

end BT
end QuantiT
