import Verif.Lemmas.Dense
/-
C14-C19: block enumeration, factories, block access, element positions, dense conversion.
-/
set_option linter.unusedSectionVars false
namespace QuantiT.BT
open QuantiT.Spec

/-! ### C14 -/

/-- Started from the all-zero index, the increment visits only valid indices, each valid index exactly once
within the first `∏ counts` steps, and then is back at the all-zero index for the first time. -/
theorem C14_odometer (counts : List Nat) (hpos : ∀ n ∈ counts, 0 < n) :
    let zero := List.replicate counts.length 0
    let visit := fun k => (fun i => incr counts i true)^[k] zero
    (∀ k, InRange (visit k) counts) ∧
    (∀ idx, InRange idx counts → ∃ k, (k < counts.prod ∧ visit k = idx) ∧
      ∀ k', k' < counts.prod → visit k' = idx → k' = k) ∧
    visit counts.prod = zero ∧
    (∀ k, 0 < k → k < counts.prod → visit k ≠ zero) := by
  intro zero visit
  have hv : ∀ k, visit k = unrank counts k := incr_iterate hpos
  have hz : zero = unrank counts 0 := (unrank_zero counts).symm
  refine ⟨fun k => by rw [hv]; exact unrank_inRange hpos k, ?_, ?_, ?_⟩
  · intro idx hi
    refine ⟨rank counts idx, ⟨rank_lt hi, by rw [hv, unrank_rank hi]⟩, ?_⟩
    intro k' hk' he
    rw [hv] at he
    rw [← he, rank_unrank hpos hk']
  · rw [hv, hz]; simpa using unrank_prod hpos 0
  · intro k h0 hk he
    rw [hv, hz] at he
    have := congrArg (rank counts) he
    rw [rank_unrank hpos hk, rank_unrank hpos (prod_pos hpos)] at this
    omega

example : InRange [1, 2, 0] [2, 3, 2] ∧
    (fun i => incr [2, 3, 2] i true)^[5] [0, 0, 0] = [1, 2, 0] := by
  refine ⟨?_, by decide⟩
  exact .cons (by decide) (.cons (by decide) (.cons (by decide) .nil))

/-- The right-to-left increment (used by `reshape`) does the same with the last component fastest. -/
theorem C14_odometer_right (counts : List Nat) (hpos : ∀ n ∈ counts, 0 < n) :
    let zero := List.replicate counts.length 0
    let visit := fun k => (incrRight counts)^[k] zero
    (∀ k, InRange (visit k) counts) ∧
    (∀ idx, InRange idx counts → ∃ k, (k < counts.prod ∧ visit k = idx) ∧
      ∀ k', k' < counts.prod → visit k' = idx → k' = k) ∧
    visit counts.prod = zero ∧
    (∀ k, 0 < k → k < counts.prod → visit k ≠ zero) := by
  intro zero visit
  have hpos' : ∀ n ∈ counts.reverse, 0 < n := fun n hn => hpos n (List.mem_reverse.mp hn)
  have hv : ∀ k, visit k = ((fun i => incr counts.reverse i true)^[k] (List.replicate counts.reverse.length 0)).reverse := by
    intro k
    induction k with
    | zero => simp [visit, zero]
    | succ k ih =>
      simp only [visit] at ih ⊢
      rw [Function.iterate_succ_apply', ih, Function.iterate_succ_apply']
      simp [incrRight]
  have hz : zero = (List.replicate counts.reverse.length 0).reverse := by simp [zero]
  obtain ⟨h1, h2, h3, h4⟩ := C14_odometer counts.reverse hpos'
  have hr : ∀ {a b : List Nat}, InRange a b → InRange a.reverse b.reverse := fun h => List.rel_reverse h
  have hp : counts.reverse.prod = counts.prod := List.prod_reverse counts
  refine ⟨?_, ?_, ?_, ?_⟩
  · intro k; rw [hv]; simpa using hr (h1 k)
  · intro idx hi
    obtain ⟨k, ⟨hk, he⟩, hu⟩ := h2 idx.reverse (hr hi)
    refine ⟨k, ⟨hp ▸ hk, by rw [hv]; exact (congrArg List.reverse he).trans (List.reverse_reverse _)⟩, ?_⟩
    intro k' hk' he'
    refine hu k' (hp ▸ hk') ?_
    rw [← he', hv]; exact (List.reverse_reverse _).symm
  · rw [hv, ← hp, hz]; exact congrArg List.reverse h3
  · intro k h0 hk he
    rw [hv, hz] at he
    exact h4 k h0 (hp ▸ hk) (List.reverse_injective he)

example : (incrRight [2, 3, 2])^[5] [0, 0, 0] = [0, 2, 1] := by decide

variable {G R : Type} [AddCommMonoid G] [DecidableEq G] [Zero R]

/-! ### C15 -/

/-- A factory terminates and stores, for every allowed block index, the block it made with the sizes of the
selected sections, and nothing anywhere else. -/
theorem C15_factory_partial (shape : Shape G) (rule : G) (hpos : ∀ d ∈ shape, d ≠ [])
    (fac : List Nat → List Nat → List Nat → R) :
    ∃ fuel t, factoryWrap fac fuel (sparseZeros shape rule) = some (.ok t) ∧
      t.shape = shape ∧ t.rule = rule ∧ Sorted t.blocks ∧
      (∀ b secs, sections shape b = some secs → charge secs = rule →
        lookup t.blocks b = some ⟨secs.map Prod.fst, fac b (secs.map Prod.fst)⟩) ∧
      (∀ b, ¬ Allowed shape rule b → lookup t.blocks b = none) := by
  let mkv : List Nat → Option (Blk R) := fun b =>
    (sections shape b).map fun secs => ⟨secs.map Prod.fst, fac b (secs.map Prod.fst)⟩
  obtain ⟨bl', h1, h2, h3⟩ := fill_eq (rule := rule) (mkv := mkv)
    (mk := fun idx sz => .ok (some ⟨sz, fac idx sz⟩)) hpos
    (by intro idx secs hs _; simp [mkv, hs]) [] .nil
  refine ⟨_, _, h1, rfl, rfl, h2, ?_, ?_⟩
  · intro b secs hs hc
    show lookup bl' b = _
    rw [h3, if_pos ⟨secs, hs, hc⟩]; simp [mkv, hs]
  · intro b hb
    show lookup bl' b = _
    rw [h3, if_neg hb]; rfl

example : ∀ d ∈ ([[(2, 0), (3, 1)], [(1, 0), (4, -1)]] : Shape ℤ), d ≠ [] := by decide
example : Allowed ([[(2, 0), (3, 1)], [(1, 0), (4, -1)]] : Shape ℤ) 0 [1, 1] := by decide

/-- Without the hypothesis it fails: a dimension without sections makes the loop read outside the charges
before it can stop. -/
theorem C15_factory_fails (fac : List Nat → List Nat → List Nat → R) (n : Nat) (rule : G) :
    factoryWrap fac (n + 1) (sparseZeros [[]] rule : BT G R) = some Res.ub := rfl

/-- The sparse constructors store nothing. -/
theorem C15_sparse (shape : Shape G) (rule : G) (b : List Nat) :
    lookup (sparseZeros shape rule : BT G R).blocks b = none := rfl

/-! ### C16 -/

/-- For a block index inside the grid: an allowed index gives the block at that index, creating an undefined
one if it was absent and leaving every other block alone; a forbidden index throws `invalid_argument`. -/
theorem C16_block_partial (t : BT G R) (hs : Sorted t.blocks) (b : List Nat) (hb : InRange b (secCounts t.shape)) :
    (Allowed t.shape t.rule b → ∃ t' i, block t b = .ok (t', i) ∧ t'.shape = t.shape ∧ t'.rule = t.rule ∧
      Sorted t'.blocks ∧ t'.blocks[i]? = some (b, (lookup t.blocks b).getD undef) ∧
      (∀ x, lookup t'.blocks x = if x = b then some ((lookup t.blocks b).getD undef) else lookup t.blocks x)) ∧
    (¬ Allowed t.shape t.rule b → block t b = Res.throw .invalidArgument) := by
  constructor
  · intro ha
    have h := FM.insert_eq hs b undef
    refine ⟨{ t with blocks := (FM.insert t.blocks b undef).1 }, (FM.insert t.blocks b undef).2.1, ?_, ?_⟩
    · simp only [block, conserves_allowed ha, bind, Except.bind, FM.index_eq_insert hs]; rfl
    · exact ⟨rfl, rfl, h.1, h.2.2.1, h.2.1⟩
  · intro ha
    simp only [block, conserves_false hb ha, bind, Except.bind]; rfl

/-- `block_at` finds exactly the stored blocks and throws `out_of_range` otherwise. -/
theorem C16_block_at (t : BT G R) (hs : Sorted t.blocks) (b : List Nat) :
    blockAt t b = match lookup t.blocks b with
      | some v => .ok v
      | none => Res.throw .outOfRange := by
  have := (FM.C09_queries hs b).1
  rw [blockAt, this]
  rcases lookup t.blocks b with _ | v <;> rfl

example : InRange [1, 1] (secCounts ([[(2, 0), (3, 1)], [(1, 0), (4, -1)]] : Shape ℤ)) :=
  .cons (by decide) (.cons (by decide) .nil)

/-- An index beyond the sections of a dimension is not rejected: the charge is read from the next dimension
and a block is created outside the grid. -/
theorem C16_block_fails : ∃ (t t' : BT ℤ ℤ) (b : List Nat) (i : Nat), t.blocks = [] ∧
    ¬ Allowed t.shape t.rule b ∧ block t b = .ok (t', i) ∧ ∃ v, lookup t'.blocks b = some v := by
  refine ⟨⟨[[(1, 0)], [(1, 0)]], 0, []⟩, _, [1, 0], _, rfl, by decide, rfl, _, rfl⟩

/-- An index of the wrong length is not rejected either; it runs off the charges. -/
theorem C16_length_fails (t : BT G R) (b : List Nat) (hb : b.length ≠ t.shape.length) : block t b = Res.ub := by
  have : ∀ (sh : Shape G) (b : List Nat), b.length ≠ sh.length → blockProps sh b = Res.ub := by
    intro sh
    induction sh with
    | nil => intro b hb; cases b with
      | nil => simp at hb
      | cons => rfl
    | cons d ds ih =>
      intro b hb
      cases b with
      | nil => rfl
      | cons x xs =>
        simp only [blockProps]
        split
        · rfl
        · rw [ih xs (by simpa using hb)]; rfl
  simp only [block, conserves, this t.shape b hb]
  rfl

/-! ### C17 -/

/-- Decomposing a position inside a dimension gives a section and an offset below its size whose preceding
sizes add up to the position, and every such pair comes from exactly that position. -/
theorem C17_bijection (d : Dim G) :
    (∀ e, e < dimSize d → ∃ s, d[(decompose1 d e).1]? = some s ∧ (decompose1 d e).2 < s.1 ∧
      dimSize (d.take (decompose1 d e).1) + (decompose1 d e).2 = e) ∧
    (∀ b s o, d[b]? = some s → o < s.1 →
      dimSize (d.take b) + o < dimSize d ∧ decompose1 d (dimSize (d.take b) + o) = (b, o)) := by
  constructor
  · intro e he
    obtain ⟨p, hp⟩ := locate_isSome.mpr he
    rw [decompose1_eq hp]
    exact locate_iff.mp hp
  · intro b s o h1 h2
    have hl : locate d (dimSize (d.take b) + o) = some (b, o) := locate_iff.mpr ⟨s, h1, h2, rfl⟩
    exact ⟨locate_isSome.mp ⟨_, hl⟩, decompose1_eq hl⟩

/-- Decomposing a whole multi-index inside the tensor does so in every dimension. -/
theorem C17_decompose (shape : Shape G) (e : List Nat) (he : InRange e (shape.map dimSize)) :
    ∃ b o, decompose shape e = .ok (b, o) ∧ locateAll shape e = some (b, o) ∧
      ∃ secs, sections shape b = some secs ∧ InRange o (secs.map Prod.fst) := by
  obtain ⟨⟨b, o⟩, hp⟩ := locateAll_isSome.mpr he
  exact ⟨b, o, decompose_eq hp, hp, locateAll_sections hp⟩

/-- `element_conserved_qtt` is the charge of the section containing the element, and throws
`invalid_argument` beyond the dimension. -/
theorem C17_element_qtt (shape : Shape G) (dim : Nat) (d : Dim G) (hd : shape[dim]? = some d) (e : Nat) :
    (e < dimSize d → ∃ s, d[(decompose1 d e).1]? = some s ∧ elementQtt shape dim e = .ok s.2) ∧
    (dimSize d ≤ e → elementQtt shape dim e = Res.throw .invalidArgument) := by
  have hf : (d.map Prod.fst).foldl (· + ·) 0 = dimSize d := foldl_add_zero _
  constructor
  · intro he
    have : ∀ (d : Dim G) (e : Nat), e < dimSize d → ∃ s, d[(decompose1 d e).1]? = some s ∧ scanQtt d e = .ok s.2 := by
      intro d
      induction d with
      | nil => intro e he; simp [dimSize] at he
      | cons s d ih =>
        intro e he
        rw [dimSize_cons] at he
        simp only [decompose1, scanQtt]
        by_cases h : s.1 ≤ e
        · obtain ⟨s', h1, h2⟩ := ih (e - s.1) (by omega)
          refine ⟨s', ?_, ?_⟩
          · simp [h, h1]
          · simp [h, h2]
        · exact ⟨s, by simp [h], by simp [h]⟩
    obtain ⟨s, h1, h2⟩ := this d e he
    refine ⟨s, h1, ?_⟩
    simp only [elementQtt, hd, hf]
    rw [if_neg (by omega), h2]
  · intro he
    simp only [elementQtt, hd, hf]
    rw [if_pos he]

example : decompose1 [(2, 0), (0, 1), (3, (1 : ℤ))] 3 = (2, 1) ∧ 3 < dimSize [(2, 0), (0, 1), (3, (1 : ℤ))] := by decide
example : elementQtt [[(2, 0), (0, 7), (3, (1 : ℤ))]] 0 3 = .ok 1 := by decide

/-! ### C18 -/

/-- `to_dense()` of a conserving tensor has the tensor's sizes and the tensor's entry everywhere. -/
theorem C18_to_dense (t : BT G R) (hc : Conserving t.shape t.rule t.blocks) :
    ∃ d, toDense t = .ok d ∧ d.dims = t.shape.map dimSize ∧ ∀ e, d.f e = entry t.shape t.blocks e := by
  obtain ⟨d, h1, h2, h3⟩ := toDense_fold (shape := t.shape) t.blocks ⟨sizes t.shape, fun _ => 0⟩ hc.sorted
    (fun k b h => let ⟨secs, a, _, c⟩ := hc.block k b h; ⟨secs, a, c⟩)
  refine ⟨d, h1, by rw [h2]; exact sizes_eq _, ?_⟩
  intro e
  rw [h3]
  rfl

/-- A conserving tensor with two stored blocks out of two allowed ones. -/
def ex18 : BT ℤ ℤ :=
  ⟨[[(2, 0), (1, 1)], [(1, 0), (2, -1)]], 0, [([0, 0], ⟨[2, 1], fun o => o.sum + 1⟩), ([1, 1], ⟨[1, 2], fun o => o.sum + 5⟩)]⟩

theorem ex18_conserving : Conserving ex18.shape ex18.rule ex18.blocks := by
  refine ⟨by unfold Sorted ex18; decide, ?_⟩
  intro k b h
  simp only [ex18, List.mem_cons, List.not_mem_nil, or_false, Prod.mk.injEq] at h
  rcases h with ⟨rfl, rfl⟩ | ⟨rfl, rfl⟩
  · exact ⟨[(2, 0), (1, 0)], rfl, rfl, rfl⟩
  · exact ⟨[(1, 1), (2, -1)], rfl, rfl, rfl⟩

/-! ### C19 -/

/-- `from_basic_tensor` with as many rounds of the loop as there are block indices. -/
theorem fromBasic_eq (shape : Shape G) (rule : G) (hpos : ∀ d ∈ shape, d ≠ []) (sig : Blk R → Bool)
    (values : Blk R) (hv : values.dims = shape.map dimSize) :
    ∃ t, fromBasic sig values (secCounts shape).prod (sparseZeros shape rule) = some (.ok t) ∧
      t.shape = shape ∧ t.rule = rule ∧ Conserving shape rule t.blocks ∧
      ∃ cut : List Nat → Blk R,
        -- `cut b` is the part of the dense tensor at block index `b`
        (∀ b secs, sections shape b = some secs → (cut b).dims = secs.map Prod.fst ∧
          ∀ e o, locateAll shape e = some (b, o) → (cut b).f o = values.f e) ∧
        (∀ b, lookup t.blocks b = if Allowed shape rule b ∧ sig (cut b) = true then some (cut b) else none) := by
  let cut : List Nat → Blk R := fun b =>
    match fullSlice shape b with
    | .ok sl => indexSlices values sl
    | .error _ => undef
  have hcut : ∀ b secs, sections shape b = some secs → (cut b).dims = secs.map Prod.fst ∧
      ∀ e o, locateAll shape e = some (b, o) → (cut b).f o = values.f e := by
    intro b secs hs
    obtain ⟨sl, g1, g2, g3, g4, g5, g6⟩ := fullSlice_eq hs
    have hc : cut b = indexSlices values sl := by simp only [cut, g1]
    rw [hc]
    constructor
    · simp only [indexSlices, hv]
      rw [← g2]
      clear g1 g2 g3 g4 g6 hc
      generalize shape.map dimSize = ns at g5 ⊢
      induction g5 with
      | nil => rfl
      | @cons n s ns ss h1 h2 ih =>
        simp only [List.zipWith_cons_cons, List.map_cons, ih, List.cons.injEq, and_true]
        rw [Nat.min_eq_left h1.1, Nat.min_eq_left h1.2]
    · intro e o he
      have hin := g6 e o he
      have h2 := (g3 e).mp hin
      rw [he] at h2
      simp only [Option.some.injEq, Prod.mk.injEq, true_and] at h2
      simp only [indexSlices]
      congr 1
      rw [h2]
      clear g1 g2 g3 g4 g5 g6 hc h2 he
      induction sl generalizing e with
      | nil => cases e <;> simp_all [inSlices]
      | cons s sl ih =>
        cases e with
        | nil => simp [inSlices] at hin
        | cons x xs =>
          simp only [inSlices, Bool.and_eq_true, decide_eq_true_eq] at hin
          simp only [List.zipWith_cons_cons, List.cons.injEq]
          exact ⟨by omega, ih xs hin.2⟩
  obtain ⟨bl', h1, h2, h3⟩ := fill_eq (shape := shape) (rule := rule)
    (mkv := fun b => if sig (cut b) then some (cut b) else none)
    (mk := fun idx _ => do
      let sl ← fullSlice shape idx
      let b := indexSlices values sl
      .ok (if sig b then some b else none)) hpos
    (by
      intro idx secs hs _
      obtain ⟨sl, g1, _⟩ := fullSlice_eq hs
      simp only [cut, g1]; rfl) [] .nil
  have hlook : ∀ b, lookup bl' b = if Allowed shape rule b ∧ sig (cut b) = true then some (cut b) else none := by
    intro b
    rw [h3]
    by_cases ha : Allowed shape rule b <;> by_cases hsg : sig (cut b) = true <;> simp [ha, hsg, lookup_nil]
  refine ⟨⟨shape, rule, bl'⟩, ?_, rfl, rfl, ⟨h2, ?_⟩, cut, hcut, hlook⟩
  · simp only [fromBasic, sparseZeros, hv, List.length_map]
    rw [if_neg (by simp)]
    exact h1
  · intro k b hk
    have := lookup_of_mem h2 hk
    simp only [hlook] at this
    split at this
    · rename_i h
      obtain ⟨⟨secs, hs1, hs2⟩, _⟩ := h
      cases this
      exact ⟨secs, hs1, hs2, (hcut k secs hs1).1⟩
    · cases this

/-- `from_basic_tensor` of a dense tensor of the right sizes stores exactly the allowed blocks that pass the
cutoff test, and each stored entry is the dense entry at that position. -/
theorem C19_from_basic_partial (shape : Shape G) (rule : G) (hpos : ∀ d ∈ shape, d ≠ []) (sig : Blk R → Bool)
    (values : Blk R) (hv : values.dims = shape.map dimSize) :
    ∃ fuel t, fromBasic sig values fuel (sparseZeros shape rule) = some (.ok t) ∧
      t.shape = shape ∧ t.rule = rule ∧ Conserving shape rule t.blocks ∧
      ∃ cut : List Nat → Blk R,
        -- `cut b` is the part of the dense tensor at block index `b`
        (∀ b secs, sections shape b = some secs → (cut b).dims = secs.map Prod.fst ∧
          ∀ e o, locateAll shape e = some (b, o) → (cut b).f o = values.f e) ∧
        (∀ b, lookup t.blocks b = if Allowed shape rule b ∧ sig (cut b) = true then some (cut b) else none) :=
  ⟨_, fromBasic_eq shape rule hpos sig values hv⟩

/-- If the cutoff test only drops blocks that vanish (cutoff 0), the dense content of the result is the
allowed part of the input; on input that vanishes outside the allowed blocks, `to_dense` gives it back. -/
theorem C19_round_trip_partial (shape : Shape G) (rule : G) (hpos : ∀ d ∈ shape, d ≠ []) (sig : Blk R → Bool)
    (hsig : ∀ b : Blk R, sig b = false → ∀ o, InRange o b.dims → b.f o = 0)
    (values : Blk R) (hv : values.dims = shape.map dimSize) :
    ∃ fuel t, fromBasic sig values fuel (sparseZeros shape rule) = some (.ok t) ∧
      (∀ e b o, locateAll shape e = some (b, o) →
        entry t.shape t.blocks e = if Allowed shape rule b then values.f e else 0) ∧
      ((∀ e b o, locateAll shape e = some (b, o) → ¬ Allowed shape rule b → values.f e = 0) →
        ∃ d, toDense t = .ok d ∧ d.dims = values.dims ∧ ∀ e, InRange e values.dims → d.f e = values.f e) := by
  obtain ⟨fuel, t, h1, h2, h3, hc, cut, hcut, hlook⟩ := C19_from_basic_partial shape rule hpos sig values hv
  have hent : ∀ e b o, locateAll shape e = some (b, o) →
      entry t.shape t.blocks e = if Allowed shape rule b then values.f e else 0 := by
    intro e b o hl
    obtain ⟨secs, hs, ho⟩ := locateAll_sections hl
    obtain ⟨hd, hf⟩ := hcut b secs hs
    simp only [entry, h2, hl, hlook]
    by_cases ha : Allowed shape rule b
    · by_cases hsg : sig (cut b) = true
      · simp [ha, hsg, hf e o hl]
      · have := hsig (cut b) (by simpa using hsg) o (by rw [hd]; exact ho)
        simp [ha, hsg, ← hf e o hl, this]
    · simp [ha]
  refine ⟨fuel, t, h1, hent, ?_⟩
  intro hvan
  obtain ⟨d, hd1, hd2, hd3⟩ := C18_to_dense t (by rw [h2, h3]; exact hc)
  refine ⟨d, hd1, by rw [hd2, h2, hv], ?_⟩
  intro e he
  rw [hv] at he
  obtain ⟨⟨b, o⟩, hl⟩ := locateAll_isSome.mpr he
  rw [hd3, hent e b o hl]
  split
  · rfl
  · rename_i ha; exact (hvan e b o hl ha).symm

example : (⟨[3, 3], fun e => if e = [2, 1] then 7 else 0⟩ : Blk ℤ).dims = ex18.shape.map dimSize := by decide
/-- A test that only drops zero blocks exists: keep everything. -/
example : ∀ b : Blk ℤ, (fun _ => true : Blk ℤ → Bool) b = false → ∀ o, InRange o b.dims → b.f o = 0 := by simp

/-- The sizes of the dense tensor are not checked: a dense tensor that is too small is accepted and leaves a
stored block of the wrong size. -/
theorem C19_sizes_fails : ∃ (shape : Shape ℤ) (values : Blk ℤ) (t : BT ℤ ℤ) (fuel : Nat),
    values.dims ≠ shape.map dimSize ∧
    fromBasic (fun _ => true) values fuel (sparseZeros shape 0) = some (.ok t) ∧
    ¬ Conserving t.shape t.rule t.blocks := by
  refine ⟨[[(3, 0)]], ⟨[2], fun _ => 1⟩, _, 1, by decide, rfl, ?_⟩
  intro h
  obtain ⟨secs, h1, _, h3⟩ := h.block [0] _ (List.mem_singleton.mpr rfl)
  have : some [((3 : Nat), (0 : ℤ))] = some secs := h1
  cases this
  exact absurd h3 (by decide)

end QuantiT.BT
