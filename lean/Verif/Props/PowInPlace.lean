import Verif.Model.PowInPlace
import Verif.Props.Failure
import Verif.Props.Elementwise
/-
C99 and C108 for `pow_` of two block tensors.
-/
namespace QuantiT
namespace Spec
variable {G : Type}

/-- Aligned from the last dimension, the first shape is a single element only where the second is too: nothing of a tensor of the
first shape is repeated when it is combined with one of the second. -/
def NotRepeated (s s' : Shape G) : Prop :=
  List.Forall₂ (fun d d' => OneElement d → OneElement d') (s.drop (s.length - s'.length)) (s'.drop (s'.length - s.length))

end Spec
namespace BT
open Spec
variable {G R : Type}

theorem notRepeated_can : ∀ {ls ss : Shape G}, List.Forall₂ (fun d d' => OneElement d → OneElement d') ls ss →
    canInPlace true (List.zipWith maskDim ls ss) = true := by
  intro ls ss h
  induction h with
  | nil => rfl
  | @cons l s ls ss h _ ih =>
    simp only [List.zipWith_cons_cons, canInPlace, List.all_cons, Bool.and_eq_true]
    refine ⟨?_, ih⟩
    by_cases hl : OneElement l
    · simp [maskDim_parts, hl, h hl]
    · simp [maskDim_parts, hl]

theorem masks_of_ok [Add G] : ∀ {ls ss : Shape G} {r : List (Nat × Dim G)},
    (ls.zip ss).mapM (fun p => shapeDim p.1 p.2) = (.ok r : Res _) → ls.length = ss.length →
    r.map Prod.fst = List.zipWith maskDim ls ss
  | [], [], r, h, _ => by cases h; rfl
  | l :: ls, s :: ss, r, h, hl => by
    rw [List.zip_cons_cons, List.mapM_cons] at h
    simp only [bind, Except.bind] at h
    rcases h1 : shapeDim l s with e | x <;> rw [h1] at h
    · cases h
    rcases h2 : (ls.zip ss).mapM (fun p => shapeDim p.1 p.2) with e | xs <;> rw [h2] at h
    · cases h
    cases h
    have := masks_of_ok h2 (by simpa using hl)
    have hx : x.1 = maskDim l s := by
      unfold shapeDim at h1
      simp only [bind, Except.bind] at h1
      split_ifs at h1
      · cases h1
      · rcases h3 : addCharges l s with e | d <;> rw [h3] at h1 <;> cases h1
        rfl
      · rcases h3 : addCharges s l with e | d <;> rw [h3] at h1 <;> cases h1
        rfl
    simp [hx, this]

/-- The loops with new blocks leave the tensor alone. -/
theorem loopT_unharmed (op : R → R → R) (mask : List Nat) (t : BT G R) (next : FM (List Nat) (Blk R) → Outcome G R)
    (hn : ∀ r, Unharmed (next r) t) : ∀ (l : List ((List Nat × Blk R) × Nat)) (out : FM (List Nat) (Blk R)),
    Unharmed (broadcastLoopT op false mask t out l next) t
  | [], out => by unfold broadcastLoopT; exact hn out
  | (o, i) :: l, out => by
    have key : ∀ {α : Type} (r : Res α) (k : α → Outcome G R), (∀ a, Unharmed (k a) t) → Unharmed (guarded t r k) t := by
      intro α r k hk
      unfold guarded
      split
      · exact hk _
      · intro e w h; cases h; exact ⟨rfl, rfl, rfl⟩
      · intro e w h; cases h
    unfold broadcastLoopT
    split
    · intro e w h; cases h
    rename_i x _
    by_cases hm : matchIndex mask x.1 o.1 = true
    · rw [if_pos hm]
      refine key _ _ fun k => key _ _ fun blk => key _ _ fun r => ?_
      exact loopT_unharmed op mask t next hn l _
    · rw [if_neg hm]
      exact loopT_unharmed op mask t next hn l out

/-- **C108**, `pow_`: if nothing of `a` has to be repeated (no aligned dimension is a single element in `a` only) and `b` has no
larger rank, a `pow_` that throws leaves `a` as it was, whatever the sizes of the sections.  Missing: exponents against which `a`
is repeated (`C108_pow_fails`). -/
theorem C108_pow_partial [AddCommMonoid G] (op : R → R → R) (a b : BT G R) (hle : b.shape.length ≤ a.shape.length)
    (hnr : NotRepeated a.shape b.shape) : Unharmed (swappedIn op a b) a := by
  unfold NotRepeated at hnr
  rw [show b.shape.length - a.shape.length = 0 by omega, List.drop_zero] at hnr
  unfold swappedIn shapeCompute
  simp only [hle, decide_true, if_true, bind, Except.bind]
  rcases h : ((a.shape.drop (a.shape.length - b.shape.length)).zip b.shape).mapM (fun p => shapeDim p.1 p.2) with e | r <;> rw [h]
  · cases e with
    | throw e => intro e' w h; cases h; exact ⟨rfl, rfl, rfl⟩
    | ub => intro e' w h; cases h
  · simp only [guarded]
    rw [if_pos (by rw [masks_of_ok h hnr.length_eq]; exact notRepeated_can hnr)]
    exact loopT_unharmed op _ a _ (fun r e w h => by cases h) _ _

/-- `pow_` is the out of place operation if nothing of the tensor has to be repeated. -/
theorem swappedIn_done [AddCommMonoid G] [DecidableEq G] [Zero R] (op : R → R → R) (a b : BT G R)
    (ha : Conserving a.shape a.rule a.blocks) (hb : Conserving b.shape b.rule b.blocks)
    (hna : ∀ d ∈ a.shape, d ≠ []) (hnb : ∀ d ∈ b.shape, d ≠ []) (hf : Fits a.shape b.shape) (hw : NoWide a.shape b.shape)
    (hle : b.shape.length ≤ a.shape.length) (hnr : NotRepeated a.shape b.shape) :
    ∃ r, swappedIn op a b = .done r ∧ broadcastOp op a b = .ok r := by
  unfold NotRepeated at hnr
  rw [show b.shape.length - a.shape.length = 0 by omega, List.drop_zero] at hnr
  unfold NoWide at hw
  unfold Fits at hf
  rw [if_pos hle] at hw
  rw [show b.shape.length - a.shape.length = 0 by omega, List.drop_zero] at hf
  have hg := good_of_fit hf hw (fun d hd => hna d (List.mem_of_mem_drop hd)) hnb
  obtain ⟨r, r1, r2, r3⟩ := shapes_good hg
  have hsh := (List.take_append_drop (a.shape.length - b.shape.length) a.shape).symm
  obtain ⟨bl, b1, b2, b3⟩ := broadcast_held op ha hb hsh r3
    (b.blocks.flatMap fun o => a.blocks.map fun t => (o, t)) (fun p => p.2) (fun p => p.1)
    (by
      intro l s
      constructor
      · rintro ⟨p, hp, rfl, rfl⟩
        simp only [List.mem_flatMap, List.mem_map] at hp
        obtain ⟨o, ho, t, ht, rfl⟩ := hp
        exact ⟨ht, ho⟩
      · rintro ⟨hl, hs⟩
        exact ⟨(s, l), by simp only [List.mem_flatMap, List.mem_map]; exact ⟨s, hs, l, hl, rfl⟩, rfl, rfl⟩)
    (broadcastStepInPlace op false (r.map Prod.fst))
    (by intro p _ acc _; rfl)
  have b1' : (b.blocks.flatMap fun o => a.blocks.map fun t => (o, t)).foldlM (broadcastStep op true (r.map Prod.fst)) [] = .ok bl := by
    rw [← b1]; rfl
  refine ⟨⟨a.shape.take (a.shape.length - b.shape.length) ++ r.map Prod.snd, a.rule + b.rule, bl⟩, ?_, ?_⟩
  · unfold swappedIn shapeCompute
    simp only [hle, decide_true, if_true, r1, bind, Except.bind, guarded]
    rw [if_pos (by rw [r2]; exact notRepeated_can hnr),
      broadcastLoopT_ok op false _ a _ _ a [] bl _ (fun _ => rfl) (pairs_forall₂ _ _) (fun _ _ _ h _ => h) (fun h => by cases h) b1]
  · unfold broadcastOp shapeCompute
    simp only [hle, decide_true, if_true, r1, bind, Except.bind, b1']
    exact mkChecked_ok b2.block

/-- **C99**, `pow_`: if nothing of `a` has to be repeated (no aligned dimension is a single element in `a` only), `a.pow_(b)`
leaves in `a` what `a.pow(b)` returns, for `b` of no larger rank.  Missing: `C99_pow_in_place_fails`. -/
theorem C99_pow_in_place_partial [AddCommMonoid G] [DecidableEq G] (a b : BT G ℝ)
    (ha : Conserving a.shape a.rule a.blocks) (hb : Conserving b.shape b.rule b.blocks)
    (hna : ∀ d ∈ a.shape, d ≠ []) (hnb : ∀ d ∈ b.shape, d ≠ []) (hf : Fits a.shape b.shape) (hw : NoWide a.shape b.shape)
    (hle : b.shape.length ≤ a.shape.length) (hnr : NotRepeated a.shape b.shape) :
    ∃ r, powIn a b = .done r ∧ powT a b = .ok r :=
  swappedIn_done _ a b ha hb hna hnb hf hw hle hnr

example : NotRepeated ex99.shape ex99.shape ∧ NotRepeated ex99.shape ([[(1, 0)]] : Shape ℤ) := by
  refine ⟨.cons (fun h => h) (.cons (fun h => h) .nil), .cons (fun h => by cases h) .nil⟩

/-! ### Where the code departs -/

/-- A vector of one element. -/
def single (q : G) (x : R) : BT G R := ⟨[[(1, q)]], q, [([0], ⟨[1], fun _ => x⟩)]⟩

/-- The blocks of `tower`, from position `n` on. -/
def towerBlocks : Nat → List R → FM (List Nat) (Blk R)
  | _, [] => []
  | n, y :: ys => ([n], ⟨[1], fun _ => y⟩) :: towerBlocks (n + 1) ys

/-- A vector with one section for each of its elements, all of the same charge. -/
def tower (q : G) (ys : List R) : BT G R := ⟨[ys.map fun _ => (1, q)], q, towerBlocks 0 ys⟩

theorem towerBlocks_mem {k : List Nat} {b : Blk R} : ∀ {n : Nat} {ys : List R}, (k, b) ∈ towerBlocks n ys →
    ∃ i y, ys[i]? = some y ∧ k = [n + i] ∧ b = ⟨[1], fun _ => y⟩
  | _, [], h => by cases h
  | n, y :: ys, h => by
    unfold towerBlocks at h
    rcases List.mem_cons.1 h with h | h
    · cases h; exact ⟨0, y, rfl, rfl, rfl⟩
    · obtain ⟨i, z, h1, h2, h3⟩ := towerBlocks_mem h
      exact ⟨i + 1, z, by simpa using h1, by rw [h2]; congr 1; omega, h3⟩

theorem key_lt {i j : Nat} (h : i < j) : ([i] : List Nat) < [j] := List.Lex.rel h

theorem towerBlocks_sorted : ∀ (n : Nat) (ys : List R), Sorted (towerBlocks n ys)
  | _, [] => sorted_nil
  | n, y :: ys => by
    unfold towerBlocks
    rw [sorted_cons]
    refine ⟨?_, towerBlocks_sorted _ _⟩
    intro p hp
    obtain ⟨i, _, _, h, _⟩ := towerBlocks_mem (k := p.1) (b := p.2) hp
    rw [h]
    exact key_lt (by omega)

theorem tower_conserving [AddCommMonoid G] (q : G) (ys : List R) :
    Conserving (tower q ys).shape (tower q ys).rule (tower q ys).blocks := by
  refine ⟨towerBlocks_sorted _ _, ?_⟩
  intro k b h
  obtain ⟨i, y, h1, rfl, rfl⟩ := towerBlocks_mem h
  refine ⟨[(1, q)], ?_, by simp [charge, tower], rfl⟩
  obtain ⟨hi, hy⟩ := List.getElem?_eq_some_iff.1 h1
  simp [tower, sections, hi]

theorem single_conserving [AddCommMonoid G] (q : G) (x : R) :
    Conserving (single q x).shape (single q x).rule (single q x).blocks := by
  refine ⟨by simp [single, Sorted], ?_⟩
  intro k b h
  simp only [single, List.mem_singleton, Prod.mk.injEq] at h
  obtain ⟨rfl, rfl⟩ := h
  exact ⟨[(1, q)], rfl, by simp [charge, single], rfl⟩

theorem locate_units (q : G) : ∀ {ys : List R} {i : Nat}, i < ys.length → locate (ys.map fun _ => (1, q)) i = some (i, 0)
  | [], i, h => by simp at h
  | y :: ys, 0, _ => by simp [locate]
  | y :: ys, i + 1, h => by
    have := locate_units q (ys := ys) (i := i) (by simpa using h)
    simp only [List.map_cons, locate, Nat.not_lt_of_le (Nat.succ_le_succ (Nat.zero_le i)), if_false, Nat.add_sub_cancel, this]
    rfl

theorem lookup_tower {i : Nat} : ∀ {n : Nat} {ys : List R}, lookup (towerBlocks n ys) [n + i] = (ys[i]?).map fun y => ⟨[1], fun _ => y⟩
  | n, [] => by simp [towerBlocks, lookup]
  | n, y :: ys => by
    unfold towerBlocks
    cases i with
    | zero => simp [lookup]
    | succ i =>
      have := lookup_tower (i := i) (n := n + 1) (ys := ys)
      rw [show n + 1 + i = n + (i + 1) by omega] at this
      simp only [lookup] at this ⊢
      rw [List.find?_cons_of_neg (by simp), this]
      simp

/-- The positions met for `tower`: the one block of `single`, every time. -/
def towerOut : Nat → Nat → FM (List Nat) Nat
  | _, 0 => []
  | n, m + 1 => ([n], 0) :: towerOut (n + 1) m

theorem towerOut_mem {p : List Nat × Nat} : ∀ {n m : Nat}, p ∈ towerOut n m → ∃ i, i < m ∧ p = ([n + i], 0)
  | _, 0, h => by cases h
  | n, m + 1, h => by
    unfold towerOut at h
    rcases List.mem_cons.1 h with h | h
    · exact ⟨0, by omega, h⟩
    · obtain ⟨i, h1, h2⟩ := towerOut_mem h
      exact ⟨i + 1, by omega, by rw [h2]; congr 2; omega⟩

theorem towerOut_snoc : ∀ n m : Nat, towerOut n (m + 1) = towerOut n m ++ [([n + m], 0)]
  | n, 0 => rfl
  | n, m + 1 => by
    rw [towerOut, towerOut_snoc (n + 1) m, towerOut, List.cons_append, show n + 1 + m = n + (m + 1) by omega]

theorem towerOut_sorted : ∀ n m : Nat, Sorted (towerOut n m)
  | _, 0 => sorted_nil
  | n, m + 1 => by
    unfold towerOut
    rw [sorted_cons]
    refine ⟨?_, towerOut_sorted _ _⟩
    intro p hp
    obtain ⟨i, _, rfl⟩ := towerOut_mem hp
    exact key_lt (by omega)

theorem towerOut_emplace (m : Nat) : ∃ r, FM.emplaceHint (towerOut 0 m) (towerOut 0 m).length [m] 0 = .ok r ∧ r.1 = towerOut 0 (m + 1) := by
  obtain ⟨_, pos, h, _⟩ := FM.C12_usual_hints_partial (towerOut_sorted 0 m) [m] 0 (towerOut 0 m).length (Or.inl rfl)
  refine ⟨_, h, ?_⟩
  have hlt : ∀ a ∈ towerOut 0 m, a.1 < [m] := by
    intro a ha
    obtain ⟨i, hi, rfl⟩ := towerOut_mem ha
    exact key_lt (by omega)
  have hlb : FM.lowerBound (towerOut 0 m) [m] = (towerOut 0 m).length := by
    have := FM.lowerBound_append (A := towerOut 0 m) (B := []) hlt (by simp)
    simpa using this
  rw [FM.emplace_eq_insert (towerOut_sorted 0 m)]
  simp only [FM.insert, hlb]
  rw [towerOut_snoc]
  simp [FM.insertAt]

/-- The loops on `single` and `tower`: the one block is changed once for every element of the exponent. -/
theorem sharedLoop_tower (op : R → R → R) (q : G) (next : BT G R → FM (List Nat) Nat → Outcome G R) :
    ∀ (ys : List R) (n : Nat) (x : R),
      sharedLoop op [2] (single q x) (towerOut 0 n) ((towerBlocks n ys).map fun o => (o, 0)) next =
        next (single q (ys.foldl op x)) (towerOut 0 (n + ys.length))
  | [], n, x => rfl
  | y :: ys, n, x => by
    obtain ⟨r, h1, h2⟩ := towerOut_emplace n
    have ho : outIndex ([0] : List Nat) [n] = .ok [n] := by simp [outIndex]
    have hm : matchIndex [2] ([0] : List Nat) [n] = true := by simp [matchIndex]
    have ht : torchOpInPlace op ⟨[1], fun _ => x⟩ ⟨[1], fun _ => y⟩ = .ok ⟨[1], fun _ => op x y⟩ := rfl
    have step : sharedLoop op [2] (single q x) (towerOut 0 n) ((towerBlocks n (y :: ys)).map fun o => (o, 0)) next =
        sharedLoop op [2] (single q (op x y)) (towerOut 0 (n + 1)) ((towerBlocks (n + 1) ys).map fun o => (o, 0)) next := by
      rw [towerBlocks, List.map_cons, sharedLoop]
      simp only [single, List.getElem?_cons_zero, hm, if_true, ho, ht, guarded, List.set_cons_zero, h1, h2]
    rw [step, sharedLoop_tower op q next ys (n + 1) (op x y), List.foldl_cons, List.length_cons,
      show n + 1 + ys.length = n + (ys.length + 1) by omega]

theorem pairs_single (bs : FM (List Nat) (Blk R)) :
    (bs.flatMap fun o => (List.range 1).map fun i => (o, i)) = bs.map fun o => (o, 0) := by
  induction bs with
  | nil => rfl
  | cons o bs ih => rw [List.flatMap_cons, ih]; rfl

theorem resolve_tower (x : R) : ∀ n m : Nat,
    resolve [(([0] : List Nat), (⟨[1], fun _ => x⟩ : Blk R))] (towerOut n m) = towerBlocks n (List.replicate m x)
  | _, 0 => rfl
  | n, m + 1 => by
    have := resolve_tower x (n + 1) m
    rw [towerOut, List.replicate_succ, towerBlocks, ← this]
    rfl

/-- `pow_` on a vector of one element with an exponent of several: exact result. -/
theorem swappedIn_tower [AddCommMonoid G] (op : R → R → R) (qa qb : G) (x : R) (ys : List R) (hn : 2 ≤ ys.length) :
    swappedIn op (single qa x) (tower qb ys) =
      .done ⟨[ys.map fun _ => (1, qa + qb)], qa + qb, towerBlocks 0 (List.replicate ys.length (ys.foldl op x))⟩ := by
  have hu : ¬ OneElement (ys.map fun _ => (1, qb)) := by
    intro h
    have := congrArg List.length (show (ys.map fun _ => (1, qb)).map Prod.fst = [1] from h)
    simp at this
    omega
  have hm : maskDim ([(1, qa)] : Dim G) (ys.map fun _ => (1, qb)) = 2 := by
    rw [maskDim_eq, if_neg hu, if_pos (show OneElement [(1, qa)] from rfl)]
  have hc : addCharges (ys.map fun _ => (1, qb)) [(1, qa)] = .ok (ys.map fun _ => (1, qa + qb)) := by
    rw [addCharges_unit (by intro h; simp at h; rw [h] at hn; simp at hn)]
    simp [add_comm]
  have hs : shapeCompute (single qa x) (tower qb ys) = .ok ([2], [ys.map fun _ => (1, qa + qb)], qa + qb) := by
    unfold shapeCompute
    have : shapeDim ([(1, qa)] : Dim G) (ys.map fun _ => (1, qb)) = .ok (2, ys.map fun _ => (1, qa + qb)) := by
      unfold shapeDim
      simp only [hm, List.length_map, List.length_singleton, bind, Except.bind]
      rw [if_neg (by omega), if_neg (by omega), hc]
    simp only [single, tower, List.length_cons, List.length_nil, Nat.sub_self, List.drop_zero, List.take_zero, List.zip_cons_cons,
      List.zip_nil_left, List.mapM_cons, List.mapM_nil, this, bind, Except.bind, pure, Except.pure]
    rfl
  have hl : (tower qb ys).shape.length ≤ (single qa x).shape.length := by simp [single, tower]
  unfold swappedIn
  simp only [hl, decide_true, if_true, hs, guarded]
  rw [if_neg (by decide)]
  have := sharedLoop_tower op qa (fun t out => Outcome.done ⟨[ys.map fun _ => (1, qa + qb)], qa + qb, resolve t.blocks out⟩) ys 0 x
  have hp : ((tower qb ys).blocks.flatMap fun o => (List.range (single qa x).blocks.length).map fun i => (o, i)) =
      (towerBlocks 0 ys).map fun o => (o, 0) := pairs_single _
  rw [hp]
  refine this.trans ?_
  rw [Nat.zero_add]
  simp only [single, resolve_tower]

theorem entry_tower [Zero R] (q : G) (ys zs : List R) (hl : ys.length = zs.length) {i : Nat} (hi : i < ys.length) :
    entry [ys.map fun _ => (1, q)] (towerBlocks 0 zs) [i] = zs[i]'(hl ▸ hi) := by
  have := lookup_tower (n := 0) (ys := zs) (i := i)
  rw [Nat.zero_add, List.getElem?_eq_getElem (hl ▸ hi)] at this
  simp only [entry, locateAll, locate_units q hi, this]
  rfl

theorem foldl_pow {x : ℝ} (hx : 0 ≤ x) : ∀ (ys : List ℝ), ys.foldl (fun x y => x ^ y) x = x ^ ys.prod
  | [] => by simp
  | y :: ys => by
    rw [List.foldl_cons, foldl_pow (Real.rpow_nonneg hx y), List.prod_cons, Real.rpow_mul hx]

/-- **C99** fails of `pow_` when the tensor has to be repeated: a vector of one element `x >= 0` raised to a vector of several
exponents, each in a section of its own, gets the product of all exponents at every element; `pow` gives `x` to the power of each. -/
theorem C99_pow_in_place_fails [AddCommMonoid G] [DecidableEq G] (qa qb : G) (x : ℝ) (hx : 0 ≤ x) (ys : List ℝ)
    (hn : 2 ≤ ys.length) (hy : ∀ y ∈ ys, 0 < y) :
    ∃ r s, powIn (single qa x) (tower qb ys) = .done r ∧ powT (single qa x) (tower qb ys) = .ok s ∧
      ∀ i (h : i < ys.length), entry r.shape r.blocks [i] = x ^ ys.prod ∧ entry s.shape s.blocks [i] = x ^ ys[i] := by
  have hne : ys ≠ [] := by rintro rfl; simp at hn
  have hu : ¬ OneElement (ys.map fun _ => (1, qb)) := by
    intro h
    have := congrArg List.length (show (ys.map fun _ => (1, qb)).map Prod.fst = [1] from h)
    simp at this
    omega
  obtain ⟨s, s1, _, _, s4, s5⟩ := C99_pow_partial (single qa x) (tower qb ys) (single_conserving qa x) (tower_conserving qb ys)
    (by simp [single]) (by simpa [tower] using hne) (.cons (Or.inr (Or.inl rfl)) .nil) (.cons (fun h => absurd h hu) .nil)
  refine ⟨_, s, swappedIn_tower _ qa qb x ys hn, s1, ?_⟩
  intro i h
  constructor
  · rw [entry_tower (qa + qb) ys (List.replicate ys.length _) (by simp) h]
    simp [foldl_pow hx]
  · have hsz : (tower qb ys).shape.map dimSize = [ys.length] := by simp [tower, dimSize]
    have hsz1 : (single qa x).shape.map dimSize = [1] := rfl
    have hr : s.shape.map dimSize = [ys.length] := by
      rw [s4, hsz, hsz1]; rfl
    have hb : entry (tower qb ys).shape (tower qb ys).blocks (clip ((tower qb ys).shape.map dimSize) [i]) = ys[i] := by
      rw [hsz]
      have : clip [ys.length] [i] = [i] := by simp [clip]; omega
      rw [this]
      exact entry_tower qb ys ys rfl h
    have ha : entry (single qa x).shape (single qa x).blocks (clip ((single qa x).shape.map dimSize) [i]) = x := by
      rw [hsz1]; rfl
    have hin : InRange [i] (s.shape.map dimSize) := by
      rw [hr]
      exact .cons h .nil
    rw [s5 [i] hin (by rw [hb]; exact hy _ (List.getElem_mem h)), ha, hb]

/-- Two sections of the same charge, of sizes 1 and 2. -/
def uneven (q : G) (y z : R) : BT G R := ⟨[[(1, q), (2, q)]], q, [([0], ⟨[1], fun _ => y⟩), ([1], ⟨[2], fun _ => z⟩)]⟩

theorem swappedIn_uneven [AddCommMonoid G] (op : R → R → R) (qa qb : G) (x y z : R) :
    swappedIn op (single qa x) (uneven qb y z) = .threw .runtimeError (intact (single qa (op x y))) := by
  have hs : shapeCompute (single qa x) (uneven qb y z) = .ok ([2], [[(1, qb + qa), (2, qb + qa)]], qa + qb) := rfl
  have hl : (uneven qb y z).shape.length ≤ (single qa x).shape.length := by simp [single, uneven]
  unfold swappedIn
  simp only [hl, decide_true, if_true, hs, guarded]
  rw [if_neg (by decide)]
  rfl

/-- **C108** fails for `pow_` when the tensor has to be repeated along a section of more than one element: the element has
already been raised to the first exponent when the second section throws.  `pow` returns. -/
theorem C108_pow_fails [AddCommMonoid G] [DecidableEq G] (qa qb : G) (x y z : ℝ) :
    powIn (single qa x) (uneven qb y z) = .threw .runtimeError (intact (single qa (x ^ y))) ∧
      (∃ s, powT (single qa x) (uneven qb y z) = .ok s) ∧
      (x ^ y ≠ x → ¬ Unharmed (powIn (single qa x) (uneven qb y z)) (single qa x)) := by
  have h1 : powIn (single qa x) (uneven qb y z) = .threw .runtimeError (intact (single qa (x ^ y))) := swappedIn_uneven _ qa qb x y z
  refine ⟨h1, ?_, ?_⟩
  · have hc : Conserving (uneven qb y z).shape (uneven qb y z).rule (uneven qb y z).blocks := by
      refine ⟨by simp [Sorted, uneven]; decide, ?_⟩
      intro k b h
      simp only [uneven, List.mem_cons, Prod.mk.injEq, List.not_mem_nil, or_false] at h
      rcases h with ⟨rfl, rfl⟩ | ⟨rfl, rfl⟩
      · exact ⟨[(1, qb)], rfl, by simp [charge, uneven], rfl⟩
      · exact ⟨[(2, qb)], rfl, by simp [charge, uneven], rfl⟩
    obtain ⟨s, s1, _⟩ := C99_pow_partial (single qa x) (uneven qb y z) (single_conserving qa x) hc
      (by simp [single]) (by simp [uneven]) (.cons (Or.inr (Or.inl rfl)) .nil) (.cons (fun h => by cases h) .nil)
    exact ⟨s, s1⟩
  · intro hne hu
    have := (hu _ _ h1).2.2
    simp only [intact, single, List.map_cons, List.map_nil, List.cons.injEq, and_true, Option.some.injEq, Prod.mk.injEq, true_and,
      Blk.mk.injEq] at this
    exact hne (congrFun this [])

end BT
end QuantiT
