import Verif.Model.Python
import Verif.Props.Tensordot
import Verif.Lemmas.Network
import Verif.Spec.Mps
import Mathlib.Tactic.NormNum
/-
C101, C102: the Python interface.
-/
namespace QuantiT
namespace PY
open Spec BT
variable {T G R : Type}

/-! ### Positions -/

theorem toSize_of {x : Int} (h0 : 0 ≤ x) (h1 : x < 2 ^ 64) : toSize x = x.toNat := by
  unfold toSize; rw [Int.emod_eq_of_lt h0 h1]

theorem toInt_toSize {x : Int} (h1 : -2147483648 ≤ x) (h2 : x < 2147483648) : toInt (toSize x) = x := by
  have h : ((toSize x : Nat) : Int) = x % 18446744073709551616 := by
    unfold toSize
    rw [show (2 : Int) ^ 64 = 18446744073709551616 by norm_num, Int.toNat_of_nonneg (by omega)]
  unfold toInt
  rw [h, Int.bmod_def]
  norm_num
  split <;> omega

/-- The position that is read: that of Python, or one that does not exist. -/
theorem position_eq {n : Nat} (hn : n < 2 ^ 31) {i : Int} (h1 : -2 ^ 31 ≤ i) (h2 : i < 2 ^ 31) :
    (∀ p, pyIndex n i = some p → position n i = p ∧ p < n) ∧ (pyIndex n i = none → n ≤ position n i) := by
  norm_num at hn h1 h2
  have hp : position n i = toSize ((if i < 0 then (n : Int) else 0) + i) := by
    unfold position
    rw [toInt_toSize] <;> split <;> omega
  have hz : ∀ x : Int, toSize x = (x % 18446744073709551616).toNat := fun x => by unfold toSize; norm_num
  rw [hp, hz]
  unfold pyIndex
  constructor
  · intro p h
    split at h
    · cases h
      rw [if_neg (by omega)]
      omega
    · split at h
      · cases h
        rw [if_pos (by omega)]
        omega
      · cases h
  · intro h
    split at h
    · cases h
    · split at h
      · cases h
      · split <;> omega

/-! ### Slices -/

theorem mem_takeWhile {α : Type} (q : α → Bool) (x : α) : ∀ l : List α, x ∈ l.takeWhile q → q x = true
  | [], h => by cases h
  | y :: l, h => by
    rw [List.takeWhile_cons] at h
    split at h
    · rcases List.mem_cons.1 h with rfl | h
      · assumption
      · exact mem_takeWhile q x l h
    · cases h

theorem first_range (s : PySlice) (n : Nat) : (0 < s.step → 0 ≤ s.first n ∧ s.last n ≤ n) ∧
    (¬ 0 < s.step → s.first n ≤ n - 1 ∧ -1 ≤ s.last n) := by
  unfold PySlice.first PySlice.last pyBound
  constructor
  · intro h
    rw [if_pos h, if_pos h]
    constructor
    · cases s.start <;> simp
    · cases s.stop <;> simp
  · intro h
    rw [if_neg h, if_neg h]
    constructor
    · cases s.start <;> simp
    · cases s.stop <;> simp

/-- The positions of a slice exist, and follow each other by the step. -/
theorem positions_spec (s : PySlice) (n : Nat) : ∀ (m p : Nat), (s.positions n)[m]? = some p →
    p < n ∧ (p : Int) = s.first n + m * s.step := by
  intro m p h
  unfold PySlice.positions at h
  rw [List.getElem?_map] at h
  obtain ⟨x, hx, rfl⟩ := Option.map_eq_some_iff.1 h
  obtain ⟨hm, hx'⟩ := List.getElem?_eq_some_iff.1 hx
  have hpre := List.takeWhile_prefix (l := (List.range n).map fun m : Nat => s.first n + m * s.step)
    (fun x => decide (if 0 < s.step then x < s.last n else s.last n < x))
  have hx2 := hpre.getElem hm
  rw [hx'] at hx2
  have hmem : x ∈ List.takeWhile (fun x => decide (if 0 < s.step then x < s.last n else s.last n < x))
      ((List.range n).map fun m : Nat => s.first n + m * s.step) := by
    rw [← hx']; exact List.getElem_mem hm
  have hc := mem_takeWhile _ _ _ hmem
  simp only [decide_eq_true_eq] at hc
  have hv : x = s.first n + m * s.step := by simpa using hx2
  obtain ⟨f1, f2⟩ := first_range s n
  by_cases hs : 0 < s.step
  · rw [if_pos hs] at hc
    have := f1 hs
    have hmul : 0 ≤ (m : Int) * s.step := Int.mul_nonneg (by omega) (by omega)
    omega
  · rw [if_neg hs] at hc
    have := f2 hs
    have hmul : (m : Int) * s.step ≤ 0 := Int.mul_nonpos_of_nonneg_of_nonpos (by omega) (by omega)
    omega

theorem toSize_add (x y : Int) : (toSize x + toSize y) % 2 ^ 64 = toSize (x + y) := by
  have hz : ∀ x : Int, toSize x = (x % 18446744073709551616).toNat := fun x => by unfold toSize; norm_num
  rw [hz, hz, hz]
  norm_num
  omega

theorem sliceLoop_eq (l : List T) (hl : l.length < 2 ^ 64) (k : Int) : ∀ (ps : List Nat) (x : Int),
    (∀ m p, ps[m]? = some p → p < l.length ∧ (p : Int) = x + (m : Nat) * k) →
    sliceLoop l (toSize k) ps.length (toSize x) = .ok (ps.filterMap (l[·]?))
  | [], _, _ => rfl
  | p :: ps, x, h => by
    obtain ⟨h1, h2⟩ := h 0 p rfl
    have hx : x = p := by simpa using h2.symm
    have hp : toSize x = p := by
      rw [hx, toSize_of (by omega) (by omega)]; rfl
    have hrec := sliceLoop_eq l hl k ps (x + k) fun m q hq => by
      obtain ⟨g1, g2⟩ := h (m + 1) q (by simpa using hq)
      refine ⟨g1, ?_⟩
      rw [g2]
      push_cast
      rw [Int.add_mul]
      omega
    have hg : l[p]? = some l[p] := List.getElem?_eq_getElem h1
    rw [List.length_cons, sliceLoop, toSize_add, hrec, hp, List.filterMap_cons, hg]
    rfl

theorem setLoop_eq (n : Nat) (hn : n < 2 ^ 64) (k : Int) : ∀ (ps : List Nat) (vs : List T) (x : Int) (l : List T), l.length = n →
    ps.length = vs.length → (∀ m p, ps[m]? = some p → p < n ∧ (p : Int) = x + (m : Nat) * k) →
    setLoop (toSize k) vs (toSize x) l = .ok (putAll ps vs l)
  | [], [], _, _, _, _, _ => rfl
  | [], _ :: _, _, _, _, hl, _ => by simp at hl
  | _ :: _, [], _, _, _, hl, _ => by simp at hl
  | p :: ps, v :: vs, x, l, hln, hl, h => by
    obtain ⟨h1, h2⟩ := h 0 p rfl
    have hx : x = p := by simpa using h2.symm
    have hp : toSize x = p := by
      rw [hx, toSize_of (by omega) (by omega)]; rfl
    rw [setLoop, hp, if_pos (by omega), ← hp, toSize_add, putAll]
    refine setLoop_eq n hn k ps vs (x + k) (l.set (toSize x) v) (by simpa using hln) (by simpa using hl) fun m q hq => ?_
    obtain ⟨g1, g2⟩ := h (m + 1) q (by simpa using hq)
    refine ⟨g1, ?_⟩
    rw [g2]
    push_cast
    rw [Int.add_mul]
    omega

/-! ### The sequence interface -/

/-- What keeps the interface from being that of a list: `erase(a, b)` of a range that is not empty, `pop()`, and `pop(p)` and
`erase(p)` with positions that do not exist. -/
def Sound (l : List T) : PyOp T → Prop
  | .get i => -2 ^ 31 ≤ i ∧ i < 2 ^ 31
  | .set i _ => -2 ^ 31 ≤ i ∧ i < 2 ^ 31
  | .eraseRange a b => a = b
  | .pop => False
  | .popAt p => p < l.length
  | .erase p => p ≠ l.length
  | _ => True

/-- **C101**: an operation through Python returns and does what it does to a list, and raises an exception if it does. -/
theorem C101_operation_partial (l : List T) (hl : l.length < 2 ^ 31) (o : PyOp T) (ho : Sound l o) :
    (∀ r, pyDo o l = some r → step o l = .ok r) ∧ (pyDo o l = none → ∃ e, step o l = Res.throw e) := by
  have hl64 : l.length < 2 ^ 64 := by norm_num at hl ⊢; omega
  cases o with
  | get i =>
    obtain ⟨h1, h2⟩ := position_eq hl ho.1 ho.2
    simp only [pyDo, step]
    cases hp : pyIndex l.length i with
    | none =>
      rw [List.getElem?_eq_none (h2 hp)]
      exact ⟨fun r h => (by cases h), fun _ => ⟨_, rfl⟩⟩
    | some p =>
      obtain ⟨g1, g2⟩ := h1 p hp
      rw [g1]
      simp only [bind, Option.bind, List.getElem?_eq_getElem g2]
      exact ⟨fun r h => (by cases h; rfl), fun h => (by cases h)⟩
  | getSlice s =>
    simp only [pyDo, step, compute]
    by_cases hs : s.step = 0
    · rw [if_pos hs, if_pos hs]
      exact ⟨fun r h => (by cases h), fun _ => ⟨_, rfl⟩⟩
    · rw [if_neg hs, if_neg hs]
      simp only [bind, Except.bind, sliceLoop_eq l hl64 s.step _ _ (positions_spec s l.length)]
      exact ⟨fun r h => (by cases h; rfl), fun h => (by cases h)⟩
  | set i v =>
    obtain ⟨h1, h2⟩ := position_eq hl ho.1 ho.2
    simp only [pyDo, step]
    cases hp : pyIndex l.length i with
    | none =>
      rw [if_neg (by have := h2 hp; omega)]
      exact ⟨fun r h => (by cases h), fun _ => ⟨_, rfl⟩⟩
    | some p =>
      obtain ⟨g1, g2⟩ := h1 p hp
      rw [g1, if_pos g2]
      exact ⟨fun r h => (by cases h; rfl), fun h => (by cases h)⟩
  | setSlice s vs =>
    simp only [pyDo, step, compute]
    by_cases hs : s.step = 0
    · rw [if_pos (Or.inl hs), if_pos hs]
      exact ⟨fun r h => (by cases h), fun _ => ⟨_, rfl⟩⟩
    · rw [if_neg hs]
      by_cases hv : (s.positions l.length).length = vs.length
      · rw [if_neg (by tauto)]
        simp only [bind, Except.bind, ne_eq, hv, not_true_eq_false, if_false]
        rw [setLoop_eq l.length hl64 s.step _ vs _ l rfl hv (positions_spec s l.length)]
        exact ⟨fun r h => (by cases h; rfl), fun h => (by cases h)⟩
      · rw [if_pos (Or.inr hv)]
        simp only [bind, Except.bind, ne_eq, hv, not_false_eq_true, if_true]
        exact ⟨fun r h => (by cases h), fun _ => ⟨_, rfl⟩⟩
  | insert p v =>
    simp only [pyDo, step]
    by_cases h : p ≤ l.length
    · rw [if_pos h, if_neg (by omega)]
      exact ⟨fun r h => (by cases h; rfl), fun h => (by cases h)⟩
    · rw [if_neg h, if_pos (by omega)]
      exact ⟨fun r h => (by cases h), fun _ => ⟨_, rfl⟩⟩
  | erase p =>
    simp only [pyDo, step]
    have hne : p ≠ l.length := ho
    by_cases h : p < l.length
    · rw [if_pos h, if_neg (by omega), if_neg hne]
      exact ⟨fun r h => (by cases h; rfl), fun h => (by cases h)⟩
    · rw [if_neg h, if_pos (by omega)]
      exact ⟨fun r h => (by cases h), fun _ => ⟨_, rfl⟩⟩
  | eraseRange a b =>
    have hab : a = b := ho
    subst hab
    simp only [pyDo, step]
    rw [if_neg (Nat.lt_irrefl a)]
    by_cases h : a ≤ l.length
    · rw [if_pos ⟨Nat.le_refl a, h⟩, if_neg (by omega), if_neg (by omega), List.take_append_drop]
      exact ⟨fun r h => (by cases h; simp), fun h => (by cases h)⟩
    · rw [if_neg (by omega), if_pos (by omega)]
      exact ⟨fun r h => (by cases h), fun _ => ⟨_, rfl⟩⟩
  | append v => exact ⟨fun r h => (by cases h; rfl), fun h => (by cases h)⟩
  | pop => exact ho.elim
  | popAt p =>
    have hp : p < l.length := ho
    simp only [pyDo, step, List.getElem?_eq_getElem hp, bind, Option.bind]
    exact ⟨fun r h => (by cases h; rfl), fun h => (by cases h)⟩
  | clear => exact ⟨fun r h => (by cases h; rfl), fun h => (by cases h)⟩

/-- The operations of a history are sound when their turn comes, and the list stays below 2³¹ items. -/
def SoundAll : List (PyOp T) → List T → Prop
  | [], _ => True
  | o :: os, l => l.length < 2 ^ 31 ∧ Sound l o ∧ ∀ r, pyDo o l = some r → SoundAll os r.2

/-- **C101**: a history of such operations returns the items and leaves the sequence that it does for a list. -/
theorem C101_histories_partial : ∀ (os : List (PyOp T)) (l : List T), SoundAll os l →
    (∀ r, pyDoAll os l = some r → run os l = .ok r) ∧ (pyDoAll os l = none → ∃ e, run os l = Res.throw e)
  | [], l, _ => ⟨fun r h => (by cases h; rfl), fun h => (by cases h)⟩
  | o :: os, l, h => by
    obtain ⟨h1, h2⟩ := C101_operation_partial l h.1 o h.2.1
    simp only [pyDoAll, run]
    cases hd : pyDo o l with
    | none =>
      obtain ⟨e, he⟩ := h2 hd
      simp only [bind, Option.bind, Except.bind, he]
      exact ⟨fun r h => (by cases h), fun _ => ⟨e, rfl⟩⟩
    | some r =>
      obtain ⟨g1, g2⟩ := C101_histories_partial os r.2 (h.2.2 r hd)
      simp only [bind, Option.bind, Except.bind, h1 r hd]
      cases hr : pyDoAll os r.2 with
      | none =>
        obtain ⟨e, he⟩ := g2 hr
        simp only [he]
        exact ⟨fun r h => (by cases h), fun _ => ⟨e, rfl⟩⟩
      | some r' =>
        simp only [g1 r' hr]
        exact ⟨fun r h => (by cases h; rfl), fun h => (by cases h)⟩

theorem soundAll_cons {o : PyOp T} {os : List (PyOp T)} {l : List T} {r : List T × List T} (h1 : l.length < 2 ^ 31) (h2 : Sound l o)
    (h3 : pyDo o l = some r) (h4 : SoundAll os r.2) : SoundAll (o :: os) l :=
  ⟨h1, h2, fun r' h => by rw [h3] at h; cases h; exact h4⟩

example : SoundAll [.append 7, .set (-1) 8, .getSlice ⟨none, none, -2⟩, .setSlice ⟨some 1, some (-1), 1⟩ [5, 6], .popAt 0] [1, 2, 3] := by
  refine soundAll_cons (r := ([], [1, 2, 3, 7])) (by decide) (by simp [Sound]) (by decide +kernel) ?_
  refine soundAll_cons (r := ([], [1, 2, 3, 8])) (by decide) (by simp [Sound]) (by decide +kernel) ?_
  refine soundAll_cons (r := ([8, 2], [1, 2, 3, 8])) (by decide) (by simp [Sound]) (by decide +kernel) ?_
  refine soundAll_cons (r := ([], [1, 5, 6, 8])) (by decide) (by simp [Sound]) (by decide +kernel) ?_
  exact soundAll_cons (r := ([1], [5, 6, 8])) (by decide) (by simp [Sound]) (by decide +kernel) trivial
example : pyDoAll [.append 7, .set (-1) 8, .getSlice ⟨none, none, -2⟩, .setSlice ⟨some 1, some (-1), 1⟩ [5, 6], .popAt 0] [1, 2, 3] =
    some ([[], [], [8, 2], [], [1]], [5, 6, 8]) := by decide +kernel

/-- **C101** fails of `erase(a, b)`: it throws for every range of the list that is not empty, and is undefined if `b` comes before `a`. -/
theorem C101_erase_range_fails (l : List T) (a b : Nat) : (a < b → b ≤ l.length →
      step (.eraseRange a b) l = Res.throw .invalidArgument ∧ pyDo (.eraseRange a b) l = some ([], l.take a ++ l.drop b)) ∧
    (b < a → a ≤ l.length → step (.eraseRange a b) l = Res.ub) := by
  constructor
  · intro h1 h2
    simp only [step, pyDo]
    rw [if_pos h1, if_pos ⟨h1.le, h2⟩]
    exact ⟨rfl, rfl⟩
  · intro h1 h2
    simp only [step]
    rw [if_neg (by omega), if_neg (by omega), if_neg (by omega), if_pos h1]

/-- **C101** fails of positions that do not exist: `erase(len)` and `pop(p)` are undefined, and so is `pop()` of an empty chain. -/
theorem C101_bad_position_fails (l : List T) (p : Nat) (hp : l.length ≤ p) :
    step (.erase l.length) l = Res.ub ∧ step (.popAt p) l = Res.ub ∧ step .pop ([] : List T) = Res.ub := by
  refine ⟨?_, ?_, rfl⟩
  · simp [step]
  · simp only [step, List.getElem?_eq_none hp]

/-- **C101** fails of `pop()`: it removes the last item and does not return it. -/
theorem C101_pop_fails (l : List T) (x : T) : step .pop (l ++ [x]) = .ok ([], l) ∧ pyDo .pop (l ++ [x]) = some ([x], l) := by
  constructor
  · simp [step]
  · simp [pyDo]

/-- **C101** fails of slices of an MPS: `mps[:]` has its center at zero, whatever the center of `mps`. -/
theorem C101_slice_center_fails : ∃ m m' : MP.MPS ℤ, Canonical m.sites m.oc ∧ mpsSlice m ⟨none, none, 1⟩ = .ok m' ∧
    m'.sites = m.sites ∧ ¬ Canonical m'.sites m'.oc := by
  refine ⟨⟨[⟨[1, 1, 1], fun _ => 1⟩, ⟨[1, 1, 1], fun _ => 2⟩], 1⟩, ⟨[⟨[1, 1, 1], fun _ => 1⟩, ⟨[1, 1, 1], fun _ => 2⟩], 0⟩, ?_, rfl, rfl, ?_⟩
  · constructor
    · intro i A h hi
      have : i = 0 := by dsimp only at hi; omega
      subst this
      cases h
      intro a b ha hb
      simp at ha hb
      subst ha hb
      simp
    · intro i A h hi
      dsimp only at hi
      rw [List.getElem?_eq_none (by simp; omega)] at h
      cases h
  · intro h
    have h1 := h.2 1 _ rfl (by decide)
    have := h1 0 0 (by decide) (by decide)
    simp at this

/-! ### Blocks and methods of block tensors -/

section blocks
variable [AddCommMonoid G] [DecidableEq G] [Zero R]

theorem sizeLoop_eq : ∀ (ss vs : List Nat), vs.length = ss.length → (sizeLoop ss vs = .ok () ↔ vs = ss) ∧
    (vs ≠ ss → sizeLoop ss vs = Res.throw .runtimeError)
  | [], [], _ => ⟨by simp [sizeLoop], fun h => (h rfl).elim⟩
  | [], _ :: _, h => by simp at h
  | _ :: _, [], h => by simp at h
  | s :: ss, v :: vs, h => by
    obtain ⟨h1, h2⟩ := sizeLoop_eq ss vs (by simpa using h)
    by_cases hv : v = s
    · subst hv
      simp only [sizeLoop, ne_eq, not_true_eq_false, if_false, List.cons.injEq, true_and]
      exact ⟨h1, h2⟩
    · simp only [sizeLoop, ne_eq, hv, not_false_eq_true, if_true, List.cons.injEq, false_and]
      exact ⟨⟨fun h => (by cases h), fun h => h.elim⟩, fun _ => trivial⟩

theorem inGrid_iff : ∀ (ind : List Nat) (c : List Nat), ind.length = c.length →
    ((List.zip ind c).any (fun p => decide (p.2 ≤ p.1)) = false ↔ InRange ind c)
  | [], [], _ => by simp [InRange]
  | [], _ :: _, h => by simp at h
  | _ :: _, [], h => by simp at h
  | i :: ind, n :: c, h => by
    have := inGrid_iff ind c (by simpa using h)
    simp only [List.zip_cons_cons, List.any_cons, Bool.or_eq_false_iff, this]
    unfold InRange
    rw [List.forall₂_cons]
    simp

/-- **C102**: `t.blocks[ind] = val` with a tensor of the rank of `t`: it succeeds exactly if the index is a section per dimension whose
charges add up to the rule and the sizes of `val` are those of the sections; then it sets that block, and the tensor stays conserving;
otherwise it throws. -/
theorem C102_set_block_partial (t : BT G R) (ht : Conserving t.shape t.rule t.blocks) (ind : List Nat) (val : Blk R)
    (hv : val.dims.length = t.shape.length) :
    (∀ secs, sections t.shape ind = some secs → charge secs = t.rule → val.dims = secs.map Prod.fst →
      ∃ t', setBlock t ind val = .ok t' ∧ t'.shape = t.shape ∧ t'.rule = t.rule ∧
        (∀ b, lookup t'.blocks b = if b = ind then some val else lookup t.blocks b) ∧ Conserving t'.shape t'.rule t'.blocks) ∧
    ((¬ ∃ secs, sections t.shape ind = some secs ∧ charge secs = t.rule ∧ val.dims = secs.map Prod.fst) →
      ∃ e, setBlock t ind val = Res.throw e) := by
  constructor
  · intro secs h1 h2 h3
    have hin := sections_inRange h1
    have hl : ind.length = (secCounts t.shape).length := hin.length_eq
    have hg := (inGrid_iff ind _ hl).2 hin
    obtain ⟨i1, i2⟩ := indexAssign_eq ht.sorted undef ind val
    refine ⟨{ t with blocks := FM.indexAssign undef t.blocks ind val }, ?_, rfl, rfl, i2, i1, fun k b hk => ?_⟩
    · unfold setBlock
      rw [if_neg (by simp [hl, secCounts]), hg, if_neg (by simp)]
      simp only [blockSizes, blockProps_eq h1, bind, Except.bind]
      rw [h3, (sizeLoop_eq _ _ rfl).1.2 rfl]
      exact blockAssign_eq val ⟨secs, h1, h2⟩
    · rcases em (k = ind) with rfl | hne
      · have := (lookup_iff_mem i1).2 hk
        rw [i2, if_pos rfl] at this
        cases this
        exact ⟨secs, h1, h2, h3⟩
      · have := (lookup_iff_mem i1).2 hk
        rw [i2, if_neg hne] at this
        exact ht.block k b (mem_of_lookup this)
  · intro h
    unfold setBlock
    by_cases hl : ind.length = t.shape.length
    · rw [if_neg (by simp [hl])]
      have hl' : ind.length = (secCounts t.shape).length := by simp [hl, secCounts]
      by_cases hin : InRange ind (secCounts t.shape)
      · rw [(inGrid_iff ind _ hl').2 hin, if_neg (by simp)]
        obtain ⟨secs, h1⟩ := sections_of_inRange hin
        simp only [blockSizes, blockProps_eq h1, bind, Except.bind]
        have hsl : val.dims.length = (secs.map Prod.fst).length := by
          rw [List.length_map, (sections_length h1).2, hv]
        by_cases hd : val.dims = secs.map Prod.fst
        · rw [hd, (sizeLoop_eq _ _ rfl).1.2 rfl]
          have hna : ¬ Allowed t.shape t.rule ind := by
            rintro ⟨s', g1, g2⟩
            rw [h1] at g1
            cases g1
            exact h ⟨secs, h1, g2, hd⟩
          simp only [blockAssign, conserves_false hin hna, bind, Except.bind]
          exact ⟨_, rfl⟩
        · rw [(sizeLoop_eq _ _ hsl).2 hd]
          exact ⟨_, rfl⟩
      · have : (List.zip ind (secCounts t.shape)).any (fun p => decide (p.2 ≤ p.1)) = true := by
          rw [← Bool.not_eq_false]
          exact fun hf => hin ((inGrid_iff ind _ hl').1 hf)
        rw [this, if_pos rfl]
        exact ⟨_, rfl⟩
    · rw [if_pos hl]
      exact ⟨_, rfl⟩

/-- **C102** fails of tensors of another rank: one with more dimensions is stored if its first sizes fit, and the tensor is no longer
one; one with fewer, whose sizes fit, is undefined. -/
theorem C102_set_block_fails (t : BT G R) (ht : Conserving t.shape t.rule t.blocks) (ind : List Nat) (secs : List (Nat × G))
    (h1 : sections t.shape ind = some secs) (h2 : charge secs = t.rule) (val : Blk R) :
    (∀ extra, extra ≠ [] → val.dims = secs.map Prod.fst ++ extra →
      ∃ t', setBlock t ind val = .ok t' ∧ lookup t'.blocks ind = some val ∧ ¬ Conserving t'.shape t'.rule t'.blocks) ∧
    (∀ n, n < secs.length → val.dims = (secs.map Prod.fst).take n → setBlock t ind val = Res.ub) := by
  have hin := sections_inRange h1
  have hl : ind.length = (secCounts t.shape).length := hin.length_eq
  have hg := (inGrid_iff ind _ hl).2 hin
  have hs : setBlock t ind val = (sizeLoop (secs.map Prod.fst) val.dims >>= fun _ => blockAssign t ind val) := by
    unfold setBlock
    rw [if_neg (by simp [hl, secCounts]), hg, if_neg (by simp)]
    simp only [blockSizes, blockProps_eq h1, bind, Except.bind]
  constructor
  · intro extra he hd
    obtain ⟨i1, i2⟩ := indexAssign_eq ht.sorted undef ind val
    have hloop : ∀ ss : List Nat, sizeLoop ss (ss ++ extra) = .ok () := by
      intro ss
      induction ss with
      | nil => rfl
      | cons s ss ih => simpa [sizeLoop] using ih
    refine ⟨{ t with blocks := FM.indexAssign undef t.blocks ind val }, ?_, by simp [i2], fun hc => ?_⟩
    · rw [hs, hd, hloop]
      exact blockAssign_eq val ⟨secs, h1, h2⟩
    · have hm : (ind, val) ∈ FM.indexAssign undef t.blocks ind val := mem_of_lookup (by simp [i2])
      obtain ⟨s', g1, _, g3⟩ := hc.block ind val hm
      dsimp only at g1
      rw [h1] at g1
      cases g1
      rw [hd] at g3
      exact he (List.append_right_eq_self.1 g3)
  · intro n hn hd
    have hloop : ∀ (ss : List Nat) (n : Nat), n < ss.length → sizeLoop ss (ss.take n) = Res.ub := by
      intro ss
      induction ss with
      | nil => intro n h; simp at h
      | cons s ss ih =>
        intro n h
        cases n with
        | zero => rfl
        | succ n => simpa [sizeLoop] using ih n (by simpa using h)
    rw [hs, hd, hloop _ n (by simpa using hn)]
    rfl

example : Conserving ex18.shape ex18.rule ex18.blocks ∧ sections ex18.shape [1, 1] = some [(1, 1), (2, -1)] ∧
    charge [((1 : Nat), (1 : ℤ)), (2, -1)] = ex18.rule ∧ (⟨[1, 2], fun _ => 9⟩ : Blk ℤ).dims = [((1 : Nat), (1 : ℤ)), (2, -1)].map Prod.fst :=
  ⟨ex18_conserving, rfl, by decide, rfl⟩
/-- A block of the right rank and the wrong sizes is refused. -/
example : ∃ e, setBlock ex18 [1, 1] ⟨[2, 2], fun _ => 9⟩ = Res.throw e :=
  (C102_set_block_partial ex18 ex18_conserving [1, 1] ⟨[2, 2], fun _ => 9⟩ rfl).2 (by
    rintro ⟨secs, h1, _, h3⟩
    cases h1
    exact absurd h3 (by decide))

end blocks

/-- **C102** fails of `inverse_cvals_`: the tensor keeps its charges, whatever they are; the inverse is returned. -/
theorem C102_inverse_in_place_fails [AddCommGroup G] (t : BT G R) : (inverseCvalsInPlace t).1 = t ∧
    (inverseCvalsInPlace t).2 = inverseCvals t := ⟨rfl, rfl⟩
example : (inverseCvals ex18).shape ≠ ex18.shape := by decide

/-! ### Contraction of a number of dimensions -/

theorem others_tail (n k : Nat) : others (List.range' n k) (n + k) = List.range n := by
  unfold others
  rw [List.range_add, List.filter_append]
  have h1 : (List.range n).filter (fun j => decide (j ∉ List.range' n k)) = List.range n :=
    List.filter_eq_self.2 fun j hj => by
      rw [List.mem_range] at hj
      simp only [List.mem_range'_1, decide_eq_true_eq]
      omega
  have h2 : ((List.range k).map (n + ·)).filter (fun j => decide (j ∉ List.range' n k)) = [] :=
    List.filter_eq_nil_iff.2 fun j hj => by
      obtain ⟨i, hi, rfl⟩ := List.mem_map.1 hj
      rw [List.mem_range] at hi
      simp only [List.mem_range'_1, decide_eq_true_eq]
      omega
  rw [h1, h2, List.append_nil]

theorem others_head (k n : Nat) : others (List.range k) (k + n) = List.range' k n := by
  unfold others
  rw [List.range_add, List.filter_append]
  have h1 : (List.range k).filter (fun j => decide (j ∉ List.range k)) = [] :=
    List.filter_eq_nil_iff.2 fun j hj => by simpa using hj
  have h2 : ((List.range n).map (k + ·)).filter (fun j => decide (j ∉ List.range k)) = (List.range n).map (k + ·) :=
    List.filter_eq_self.2 fun j hj => by
      obtain ⟨i, hi, rfl⟩ := List.mem_map.1 hj
      simp
  rw [h1, h2, List.nil_append, ← List.range'_eq_map_range]

theorem gather_front {α : Type} (x y : List α) : gather (List.range x.length) (x ++ y) = some x := by
  refine gather_iff.mpr (List.forall₂_iff_get.2 ⟨by simp, fun i h1 h2 => ?_⟩)
  simp at h1
  simp [List.getElem?_append_left h1, h1]

theorem gather_back {α : Type} (x y : List α) : gather (List.range' x.length y.length) (x ++ y) = some y := by
  refine gather_iff.mpr (List.forall₂_iff_get.2 ⟨by simp, fun i h1 h2 => ?_⟩)
  simp at h1
  simp [h1]

theorem place_tail (ea c : List Nat) : place (List.range' ea.length c.length) ea c = ea ++ c := by
  obtain ⟨h1, h2⟩ := place_gather (d := List.range' ea.length c.length) List.nodup_range' (x := ea) (c := c) (by simp)
    (fun j hj => by rw [List.mem_range'_1] at hj; omega) (by rw [others_tail]; simp)
  rw [others_tail] at h2
  have hl : (place (List.range' ea.length c.length) ea c).length = ea.length + c.length := by simp [place]
  have hp : List.range ea.length ++ List.range' ea.length c.length = List.range (ea.length + c.length) := by
    rw [List.range_add, List.range'_eq_map_range]
  refine gather_inj (p := List.range ea.length ++ List.range' ea.length c.length) (l' := ea ++ c) ?_ ?_ (gather_append h2 h1)
    (gather_append (gather_front ea c) (gather_back ea c))
  · rw [hp, hl]
  · rw [hp, List.length_append]

theorem place_head (eb c : List Nat) : place (List.range c.length) eb c = c ++ eb := by
  have e : eb.length + c.length = c.length + eb.length := Nat.add_comm _ _
  obtain ⟨h1, h2⟩ := place_gather (d := List.range c.length) List.nodup_range (x := eb) (c := c) (by simp)
    (fun j hj => by rw [List.mem_range] at hj; omega) (by rw [e, others_head]; simp)
  rw [e, others_head] at h2
  have hl : (place (List.range c.length) eb c).length = c.length + eb.length := by simp [place, e]
  have hp : List.range c.length ++ List.range' c.length eb.length = List.range (c.length + eb.length) := by
    rw [List.range_add, List.range'_eq_map_range]
  refine gather_inj (p := List.range c.length ++ List.range' c.length eb.length) (l' := c ++ eb) ?_ ?_ (gather_append h1 h2)
    (gather_append (gather_front c eb) (gather_back c eb))
  · rw [hp, hl]
  · rw [hp, List.length_append]

/-- **C102**: `a.tensordot(b, k)` contracts the last `k` dimensions of `a` with the first `k` of `b`, in order. -/
theorem C102_tensordot_number [AddCommMonoid G] [DecidableEq G] [Semiring R] (a b : BT G R) (ha : Conserving a.shape a.rule a.blocks)
    (hb : Conserving b.shape b.rule b.blocks) (sa ca cb sb : Shape G) (hsa : a.shape = sa ++ ca) (hsb : b.shape = cb ++ sb)
    (hc : Contractible ca cb) (hla : ∀ d ∈ a.shape, d.length < 2 ^ 63) (hlb : ∀ d ∈ b.shape, d.length < 2 ^ 63)
    (hne : a.blocks = [] ∨ (a.shape ≠ [] ∧ (b.blocks = [] ∨ b.shape ≠ []))) (fuel : Nat)
    (hf : a.blocks.length + b.blocks.length ≤ fuel) :
    ∃ r, tensordotNum fuel a b ca.length = some (.ok r) ∧ r.shape = sa ++ sb ∧ r.rule = a.rule + b.rule ∧
      Conserving r.shape r.rule r.blocks ∧
      ∀ ea eb, InRange ea (sa.map dimSize) → InRange eb (sb.map dimSize) →
        entry r.shape r.blocks (ea ++ eb) =
          ((indices (ca.map dimSize)).map fun c => entry a.shape a.blocks (ea ++ c) * entry b.shape b.blocks (c ++ eb)).sum := by
  have hcl : ca.length = cb.length := hc.length_eq
  have hal : a.shape.length = sa.length + ca.length := by rw [hsa, List.length_append]
  have hbl : b.shape.length = cb.length + sb.length := by rw [hsb, List.length_append]
  obtain ⟨r, h1, h2, h3, h4, h5⟩ := C23_returns a b ha hb (List.range' sa.length ca.length) (List.range ca.length) List.nodup_range'
    List.nodup_range sa sb ca cb (by rw [hsa]; exact gather_back sa ca) (by rw [hsb, hcl]; exact gather_front cb sb)
    (by rw [hal, others_tail, hsa]; exact gather_front sa ca) (by rw [hbl, hcl, others_head, hsb]; exact gather_back cb sb) hc hla hlb hne
    fuel hf
  refine ⟨r, ?_, h2, h3, h4, fun ea eb hea heb => ?_⟩
  · rw [tensordotNum, if_neg (by omega), hal, Nat.add_sub_cancel]
    exact h1
  · rw [h5 ea eb hea heb]
    refine congrArg List.sum (List.map_congr_left fun c hcm => ?_)
    have l1 : ea.length = sa.length := by rw [hea.length_eq, List.length_map]
    have l2 : c.length = ca.length := by rw [(MP.mem_indices.1 hcm).length_eq, List.length_map]
    rw [← l1, ← l2, place_tail, place_head]

/-- A block tensor contracted with another along one dimension. -/
example : ∃ r, tensordotNum 4 ex18 ⟨[[(1, 0), (2, 1)], [(2, 0)]], 0, [([0, 0], ⟨[1, 2], fun o => o.sum⟩)]⟩ 1 = some (.ok r) ∧
    r.shape = [[(2, 0), (1, 1)], [(2, 0)]] ∧ r.rule = 0 + 0 := by
  obtain ⟨r, h1, h2, h3, -⟩ := C102_tensordot_number (R := ℤ) ex18 ⟨[[(1, 0), (2, 1)], [(2, 0)]], 0, [([0, 0], ⟨[1, 2], fun o => o.sum⟩)]⟩
    ex18_conserving ⟨by unfold Sorted; decide, fun k b h => by
      simp only [List.mem_cons, List.not_mem_nil, or_false, Prod.mk.injEq] at h
      obtain ⟨rfl, rfl⟩ := h
      exact ⟨_, rfl, by decide, rfl⟩⟩ [[(2, 0), (1, 1)]] [[(1, 0), (2, -1)]] [[(1, 0), (2, 1)]] [[(2, 0)]] rfl rfl
    (by unfold Contractible; decide) (by decide) (by decide) (Or.inr ⟨by decide, Or.inr (by decide)⟩) 4 (by decide)
  exact ⟨r, h1, h2, h3⟩

end PY
end QuantiT
