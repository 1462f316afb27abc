import Verif.Spec.Alias
/-
The storage behind block tensors — /repo/include/blockTensor/btensor.h:137-155, 464-473, 613-622 and
/repo/sources/btensor.cpp:895-916, 2660-2759.

A `btensor` holds its shape and a list of `torch::Tensor`s, which are counted references to storage: copying a `btensor`
copies the references.  Here storage is a memory of blocks, and a tensor holds the addresses of its blocks.  Every address is
one storage: references to part of a storage (views, as `permute` makes them) and references held by the user outside of a
tensor are not modelled.  Addresses are never reused.
-/
namespace QuantiT
namespace BT
open Spec
variable {G R : Type}

/-- A `btensor`: btensor.h:818-837, with addresses for the blocks. -/
structure Handle (G : Type) where
  shape : Shape G
  rule : G
  blocks : FM (List Nat) Nat

/-- The variables of a program and the memory. -/
structure Mach (G R : Type) where
  vars : List (Handle G)
  heap : Nat → Blk R
  next : Nat

/-- The tensor a variable stands for. -/
def deref (h : Nat → Blk R) (t : Handle G) : BT G R := ⟨t.shape, t.rule, t.blocks.map fun e => (e.1, h e.2)⟩

/-- What a program can observe: the tensors of all its variables. -/
def Mach.values (s : Mach G R) : List (BT G R) := s.vars.map (deref s.heap)

/-- A program starts without variables. -/
def Mach.init [Inhabited R] : Mach G R := ⟨[], fun _ => ⟨[], fun _ => default⟩, 0⟩

/-- Blocks with storage of their own, as torch returns them from `clone`, `mul` and the factories. -/
def allocAll : FM (List Nat) (Blk R) → (Nat → Blk R) → Nat → FM (List Nat) Nat × (Nat → Blk R) × Nat
  | [], h, n => ([], h, n)
  | e :: es, h, n =>
    let r := allocAll es (Function.update h n e.2) (n + 1)
    ((e.1, n) :: r.1, r.2)

/-- What the two functors given to `merge` do to the entry of one index: leave it, `a.add_(b, alpha)`, or the functor for
blocks without a partner. -/
inductive Eff where
  | keep (a : Nat)
  | hit (a b : Nat)
  | lone (a : Nat)

/-- The functor for blocks present in both. -/
def Eff.meet : Eff → Eff → Eff
  | .keep a, .keep b => .hit a b
  | e, _ => e

/-- The functor for blocks without a partner. -/
def Eff.only : Eff → Eff
  | .keep a => .lone a
  | e => e

/-- One functor call, btensor.cpp:2671-2673, 2696-2708, 2727-2728, 2738-2750.  `inPlace x` is the test of the reference count:
`x.mul_(alpha)` when it holds, else `x = x.mul(alpha)`, which takes new storage. -/
def execEff [Semiring R] (alpha : R) (inPlace : Nat → Bool) (e : Eff) (h : Nat → Blk R) (n : Nat) :
    Nat × (Nat → Blk R) × Nat :=
  match e with
  | .keep a => (a, h, n)
  | .hit a b => (a, Function.update h a (addBlk alpha (h a) (h b)), n)
  | .lone a =>
    if inPlace a then (a, Function.update h a (scaleBlk alpha (h a)), n)
    else (n, Function.update h n (scaleBlk alpha (h a)), n + 1)

/-- The calls of a merge, last index first. -/
def execAll [Semiring R] (alpha : R) (inPlace : Nat → Bool) :
    FM (List Nat) Eff → (Nat → Blk R) → Nat → FM (List Nat) Nat × (Nat → Blk R) × Nat
  | [], h, n => ([], h, n)
  | e :: es, h, n =>
    let r := execAll alpha inPlace es h n
    let q := execEff alpha inPlace e.2 r.2.1 r.2.2
    ((e.1, q.1) :: r.1, q.2)

/-- `blocks_list.merge(other, collision, no_collision)`, flat_map.h:606-612: the merge decides which functor is called for
which index, the functors act on the memory.  Simplified: the calls act after the merge instead of during it, which makes a
difference only when one storage is found at two indices. -/
def mergeCells [Semiring R] (alpha : R) (inPlace : Nat → Bool) (own src : FM (List Nat) Nat) (h : Nat → Blk R) (n : Nat) :
    Res (FM (List Nat) Nat × (Nat → Blk R) × Nat) := do
  let m ← FM.mergeInsert Eff.meet Eff.only (own.map fun e => (e.1, Eff.keep e.2)) (src.map fun e => (e.1, Eff.keep e.2))
  .ok (execAll alpha inPlace m h n)

/-- The references to an address held by some tensors. -/
def refs (ts : List (Handle G)) (x : Nat) : Nat := (ts.map fun t => (t.blocks.map Prod.snd).count x).sum

/-- `a.add(const btensor& b, alpha)`, btensor.cpp:2660-2683: the blocks of `a` are cloned before the merge. -/
def addNew [DecidableEq G] [Semiring R] (s : Mach G R) (a b : Handle G) (alpha : R) : Res (Mach G R) := do
  addCheck (deref s.heap a) (deref s.heap b)
  let c := allocAll (deref s.heap a).blocks s.heap s.next
  let m ← mergeCells alpha (fun _ => false) c.1 b.blocks c.2.1 c.2.2
  .ok ⟨s.vars ++ [{ a with blocks := m.1 }], m.2.1, m.2.2⟩

/-- `a.add(btensor&& b, alpha)`, btensor.cpp:2688-2711: the blocks of `a` are not cloned.  A block without a partner is held
once more than by the variables, by the result.  Reads the first block of the result, which may not exist. -/
def addNewTmp [DecidableEq G] [Semiring R] (s : Mach G R) (a b : Handle G) (alpha : R) : Res (Mach G R) := do
  addCheck (deref s.heap a) (deref s.heap b)
  let m ← mergeCells alpha (fun x => decide (refs s.vars x + 1 ≤ 2)) a.blocks b.blocks s.heap s.next
  if m.1 = [] then Res.ub else .ok ⟨s.vars ++ [{ a with blocks := m.1 }], m.2.1, m.2.2⟩

/-- `x_i.add_(const btensor& b, alpha)`, btensor.cpp:2717-2730. -/
def addInto [DecidableEq G] [Semiring R] (s : Mach G R) (i : Nat) (a b : Handle G) (alpha : R) : Res (Mach G R) := do
  addCheck (deref s.heap a) (deref s.heap b)
  let m ← mergeCells alpha (fun _ => false) a.blocks b.blocks s.heap s.next
  .ok ⟨s.vars.set i { a with blocks := m.1 }, m.2.1, m.2.2⟩

/-- `x_i.add_(std::move(x_j), alpha)`, btensor.cpp:2734-2753: the blocks of `x_j` are moved to a local list, so that `x_j` holds
none any more.  A block of that list is held by it and by the copy in `x_i`. -/
def addIntoTmp [DecidableEq G] [Semiring R] (s : Mach G R) (i j : Nat) (a b : Handle G) (alpha : R) : Res (Mach G R) := do
  addCheck (deref s.heap a) (deref s.heap b)
  let vars := s.vars.set j { b with blocks := [] }
  let own := if i = j then [] else a.blocks
  let m ← mergeCells alpha (fun x => decide (refs vars x + 2 * (b.blocks.map Prod.snd).count x ≤ 2)) own b.blocks s.heap s.next
  .ok ⟨vars.set i { a with blocks := m.1 }, m.2.1, m.2.2⟩

/-- One statement.  Copies: btensor.h:137-142 and 150-154.  `mul_`: btensor.cpp:895-899; `mul`: 900-910.  Variables that do not
exist are not part of C++, `ub` stands for them. -/
def Mach.step [DecidableEq G] [Semiring R] (c : Cmd G R) (s : Mach G R) : Res (Mach G R) :=
  match c with
  | .new t =>
    let r := allocAll t.blocks s.heap s.next
    .ok ⟨s.vars ++ [⟨t.shape, t.rule, r.1⟩], r.2.1, r.2.2⟩
  | .copy i => match s.vars[i]? with
    | some a => .ok { s with vars := s.vars ++ [a] }
    | none => Res.ub
  | .assign i j => match s.vars[i]?, s.vars[j]? with
    | some _, some b => .ok { s with vars := s.vars.set i b }
    | _, _ => Res.ub
  | .drop i => match s.vars[i]? with
    | some a => .ok { s with vars := s.vars.set i { a with blocks := [] } }
    | none => Res.ub
  | .write i k b => match s.vars[i]? with
    | some a => match lookup a.blocks k with
      | some x => .ok { s with heap := Function.update s.heap x b }
      | none => .ok s
    | none => Res.ub
  | .add i j alpha => match s.vars[i]?, s.vars[j]? with
    | some a, some b => addNew s a b alpha
    | _, _ => Res.ub
  | .addTmp i j alpha => match s.vars[i]?, s.vars[j]? with
    | some a, some b => addNewTmp s a b alpha
    | _, _ => Res.ub
  | .addIn i j alpha => match s.vars[i]?, s.vars[j]? with
    | some a, some b => addInto s i a b alpha
    | _, _ => Res.ub
  | .addInTmp i j alpha => match s.vars[i]?, s.vars[j]? with
    | some a, some b => addIntoTmp s i j a b alpha
    | _, _ => Res.ub
  | .mul i c => match s.vars[i]? with
    | some a =>
      let r := allocAll (scale c (deref s.heap a)).blocks s.heap s.next
      .ok ⟨s.vars ++ [{ a with blocks := r.1 }], r.2.1, r.2.2⟩
    | none => Res.ub
  | .mulIn i c => match s.vars[i]? with
    | some a => .ok { s with heap := a.blocks.foldl (fun h e => Function.update h e.2 (scaleBlk c (h e.2))) s.heap }
    | none => Res.ub

/-- A whole program. -/
def Mach.run [DecidableEq G] [Semiring R] : List (Cmd G R) → Mach G R → Res (Mach G R)
  | [], s => .ok s
  | c :: cs, s => do Mach.run cs (← s.step c)

/-- A state that some program reaches. -/
def Mach.Reached [DecidableEq G] [Semiring R] [Inhabited R] (s : Mach G R) : Prop :=
  ∃ cs : List (Cmd G R), (∀ c ∈ cs, c.Fine) ∧ Mach.run cs Mach.init = .ok s

/-- Two variables share the storage of the block at an index. -/
def Mach.Shares (s : Mach G R) (i v : Nat) (k : List Nat) : Prop :=
  ∃ a b x, s.vars[i]? = some a ∧ s.vars[v]? = some b ∧ lookup a.blocks k = some x ∧ lookup b.blocks k = some x

end BT
end QuantiT
