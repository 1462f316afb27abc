import Verif.Lemmas.History
import Verif.Props.Svd
/-
C13: every finite history of operations leaves conserving block tensors only.
-/
namespace QuantiT
namespace BT
open Spec FM

section
variable {G R : Type} [AddCommGroup G] [LinearOrder G] [CommRing R]

/-- The tensors a program can hold after a finite history of calls.  Each rule is one call that returned (a call that throws
gives no tensor) on tensors obtained before; a call that changes its object in place gives the new value of the object.
Extra premises are what the caller has to respect; for each of them a `C13_..._fails` below shows that the property is lost
without it. -/
inductive Reachable : BT G R → Prop
  /-- `sparse_zeros(shape, rule)`, `shape_from(...)`, `tensor_product_shape`, the constructors without blocks, and
  `set_selection_rule_`, `shift_selection_rule_`, `neutral_shape_`, `non_conserving_cval_shift_` (which throw when there is a
  block): some layout and no block. -/
  | sparse (shape : Shape G) (rule : G) : Reachable (sparseZeros shape rule)
  /-- The constructor from a map of blocks and the layout. -/
  | construct {shape : Shape G} {rule : G} {blocks : FM (List Nat) (Blk R)} {r : BT G R} :
      Sorted blocks → mkChecked shape rule blocks = .ok r → Reachable r
  /-- `zeros`, `ones`, `full`, `rand`, `empty`, ... -/
  | factory {shape : Shape G} {rule : G} {fac : List Nat → List Nat → List Nat → R} {fuel : Nat} {r : BT G R} :
      Populated shape → factoryWrap fac fuel (sparseZeros shape rule) = some (.ok r) → Reachable r
  /-- `from_basic_tensor` -/
  | fromBasic {shape : Shape G} {rule : G} {sig : Blk R → Bool} {values : Blk R} {fuel : Nat} {r : BT G R} :
      Populated shape → values.dims = shape.map dimSize → fromBasic sig values fuel (sparseZeros shape rule) = some (.ok r) →
      Reachable r
  /-- `eye_like(t)` -/
  | eyeLike {t r : BT G R} : Reachable t → eyeLike t = .ok r → Reachable r
  /-- `t.block(k) = v` with an index inside the grid and a tensor of the size of the block -/
  | insert {t r : BT G R} {k : List Nat} {v : Blk R} : Reachable t →
      (∃ secs, sections t.shape k = some secs ∧ v.dims = secs.map Prod.fst) → blockAssign t k v = .ok r → Reachable r
  /-- `t.permute(p)` -/
  | permute {t r : BT G R} {p : List Int} : Reachable t → permute t p = .ok r → Reachable r
  /-- `t.transpose(i, j)` -/
  | transpose {t r : BT G R} {i j : Int} : Reachable t → transpose t i j = .ok r → Reachable r
  /-- `t.reshape(groups)` -/
  | reshape {t r : BT G R} {cuts : List Nat} : Reachable t → reshape t cuts = .ok r → Reachable r
  /-- `t.reshape_as(other)`, both modes -/
  | reshapeAs {t other r : BT G R} {ow : Bool} : Reachable t → reshapeAs ow t other = .ok r → Reachable r
  /-- `a.tensordot(b, da, db)` with contracted dimensions divided into sections of equal sizes -/
  | tensordot {a b r : BT G R} {da db : List Nat} {fuel : Nat} : Reachable a → Reachable b →
      (∀ ca cb, gather da a.shape = some ca → gather db b.shape = some cb → ca.map (·.map Prod.fst) = cb.map (·.map Prod.fst)) →
      (∀ d ∈ a.shape, d.length < 2 ^ 63) → (∀ d ∈ b.shape, d.length < 2 ^ 63) →
      tensordot fuel a b da db = some (.ok r) → Reachable r
  /-- `a + alpha * b`, `a - b`, `a += b` for equal shapes and rules -/
  | add {a b r : BT G R} {alpha : R} : Reachable a → Reachable b → a.shape = b.shape → add a b alpha = .ok r → Reachable r
  /-- `t * c`, `t *= c` -/
  | scale {t : BT G R} (c : R) : Reachable t → Reachable (scale c t)
  /-- elementwise functions of one tensor -/
  | map {t : BT G R} (g : R → R) : Reachable t → Reachable (mapBlocks g t)
  /-- `a.mul(b)`, `a.div(b)`, `a.pow(b)`, ... with broadcasting -/
  | elementwise {a b r : BT G R} {op : R → R → R} : Reachable a → Reachable b → broadcastOp op a b = .ok r → Reachable r
  /-- `t.inverse_cvals()` -/
  | inverse {t : BT G R} : Reachable t → Reachable (inverseCvals t)
  /-- `t.conj()` -/
  | conj {t : BT G R} (c : R → R) : Reachable t → Reachable (conj c t)
  /-- `t.basic_create_view(dims)` -/
  | view {t r : BT G R} {dims : List Int} : Reachable t → Populated t.shape → Picks t.shape dims →
      TrailingAgree t.shape dims t.blocks → basicCreateView t dims false = .ok r → Reachable r
  /-- `t.basic_create_view(dims, true)` -/
  | viewRank {t r : BT G R} {dims : List Int} : Reachable t → (∀ d ∈ t.shape, 0 < dimSize d) → Picks t.shape dims →
      TrailingAgree t.shape dims t.blocks → basicCreateView t dims true = .ok r → Reachable r
  /-- `t.basic_index_put_(dims, value)` with the last dimension free -/
  | indexPut {t value r : BT G R} {dims : List Int} : Reachable t → Reachable value → Populated t.shape → Picks t.shape dims →
      dims.getLast? = some (-1) → value.shape = kept t.shape dims → value.rule = t.rule - fixedCharge t.shape dims →
      basicIndexPut t dims value = .ok r → Reachable r
  /-- the factors of `svd(t)` -/
  | svdU {t u d v : BT G R} {fac : Blk R → Blk R × Blk R × Blk R} : Reachable t → SvdSizes fac → 2 ≤ t.shape.length →
      (∀ d ∈ t.shape, 0 < dimSize d) → svdFull fac t true = .ok (u, d, v) → Reachable u
  | svdD {t u d v : BT G R} {fac : Blk R → Blk R × Blk R × Blk R} : Reachable t → SvdSizes fac → 2 ≤ t.shape.length →
      (∀ d ∈ t.shape, 0 < dimSize d) → svdFull fac t true = .ok (u, d, v) → Reachable d
  | svdV {t u d v : BT G R} {fac : Blk R → Blk R × Blk R × Blk R} : Reachable t → SvdSizes fac → 2 ≤ t.shape.length →
      (∀ d ∈ t.shape, 0 < dimSize d) → svdFull fac t true = .ok (u, d, v) → Reachable v

theorem mapBlocks_keeps {t : BT G R} (g : R → R) (hc : Conserving t.shape t.rule t.blocks) :
    Conserving (mapBlocks g t).shape (mapBlocks g t).rule (mapBlocks g t).blocks := by
  refine ⟨FM.sorted_map_snd (g := fun b : Blk R => (⟨b.dims, fun o => g (b.f o)⟩ : Blk R)) hc.sorted, ?_⟩
  intro k b h
  obtain ⟨⟨k0, b0⟩, hm, he⟩ := List.mem_map.mp h
  cases he
  exact hc.block k0 b0 hm

theorem svd_keeps {t u d v : BT G R} {fac : Blk R → Blk R × Blk R × Blk R} (hc : Conserving t.shape t.rule t.blocks) (hf : SvdSizes fac)
    (h2 : 2 ≤ t.shape.length) (hz : ∀ d ∈ t.shape, 0 < dimSize d) (h : svdFull fac t true = .ok (u, d, v)) :
    Conserving u.shape u.rule u.blocks ∧ Conserving d.shape d.rule d.blocks ∧ Conserving v.shape v.rule v.blocks := by
  obtain ⟨lead, dr, dc, hs⟩ : ∃ lead dr dc, t.shape = lead ++ [dr, dc] := by
    rcases List.eq_nil_or_concat t.shape with h0 | ⟨l1, dc, h1⟩
    · rw [h0] at h2; simp at h2
    · rcases List.eq_nil_or_concat l1 with h0 | ⟨l2, dr, h3⟩
      · rw [h1, h0] at h2; simp at h2
      · exact ⟨l2, dr, dc, by rw [h1, h3]; simp⟩
  obtain ⟨u', d', v', r, e, ⟨_, _, c1⟩, ⟨_, _, c2⟩, ⟨_, _, c3⟩⟩ := C42_svd_partial fac hf t lead dr dc hs hc hz
  rw [h] at e
  cases e
  exact ⟨c1, c2, c3⟩

/-- C13.  After every history, each stored block index lies within the sections, the block has the sizes of those sections,
and their charges compose to the selection rule of the tensor (and the blocks are stored in order of their index).
Partial: for the uses listed in `Reachable`; its premises are needed, see below. -/
theorem C13_history_partial {t : BT G R} (h : Reachable t) :
    Sorted t.blocks ∧ ∀ k b, (k, b) ∈ t.blocks →
      ∃ secs, sections t.shape k = some secs ∧ b.dims = secs.map Prod.fst ∧ charge secs = t.rule := by
  suffices hc : Conserving t.shape t.rule t.blocks from
    ⟨hc.sorted, fun k b hk => by obtain ⟨s, h1, h2, h3⟩ := hc.block k b hk; exact ⟨s, h1, h3, h2⟩⟩
  induction h with
  | sparse shape rule => exact empty_conserving shape rule
  | construct hs h => exact checked_conserving h hs
  | factory hp h => exact factory_keeps hp h
  | fromBasic hp hv h => exact fromBasic_keeps hp hv h
  | @eyeLike t r _ h ih =>
    by_cases h2 : t.shape.length = 2
    · rcases hs : t.shape with _ | ⟨d0, _ | ⟨d1, _ | ⟨d2, l⟩⟩⟩ <;> rw [hs] at h2 <;> try (simp at h2)
      obtain ⟨r', e, _, _, c, _⟩ := C33_eye_like t d0 d1 hs
      rw [h] at e; cases e; exact c
    · rw [C33_reject_rank t h2] at h; cases h
  | insert _ hv h ih => exact insert_keeps ih hv h
  | permute _ h ih => exact permute_keeps ih h
  | transpose _ h ih => exact transpose_keeps ih h
  | reshape _ h ih => exact reshape_keeps ih h
  | reshapeAs _ h ih => exact reshapeAs_keeps ih h
  | tensordot _ _ hsz hla hlb h iha ihb => exact tensordot_keeps iha ihb hsz hla hlb h
  | @add a b r alpha _ _ hs h iha ihb =>
    have hr : a.rule = b.rule := by
      by_contra hr
      simp [BT.add, addCheck, hs, hr, bind, Except.bind, Res.throw] at h
    obtain ⟨r', e, _, _, c, _⟩ := C21_add_exact_partial a b alpha iha ihb hs hr
    rw [h] at e; cases e; exact c
  | scale c _ ih => exact mapBlocks_keeps (fun x => c * x) ih
  | map g _ ih => exact mapBlocks_keeps g ih
  | elementwise _ _ h _ _ => exact broadcastOp_keeps h
  | inverse _ ih => exact (C27_inverse _).1 ih
  | conj c _ ih => exact (C27_inverse _).1 (mapBlocks_keeps c ih)
  | @view t r dims _ hp hd ht h ih =>
    obtain ⟨r', e, _, _, c, _⟩ := C30_view_partial t ih hp dims hd ht
    rw [h] at e; cases e; exact c
  | @viewRank t r dims _ hp hd ht h ih =>
    obtain ⟨r', e, _, _, c, _⟩ := C30_view_preserve_rank_partial t ih hp dims hd ht
    rw [h] at e; cases e; exact c
  | @indexPut t value r dims _ _ hp hd hl hsh hr h iht ihv =>
    obtain ⟨r', e, _, _, c, _⟩ := C65_index_put_partial t value iht hp dims hd hl ihv hsh hr
    rw [h] at e; cases e; exact c
  | svdU _ hf h2 hz h ih => exact (svd_keeps ih hf h2 hz h).1
  | svdD _ hf h2 hz h ih => exact (svd_keeps ih hf h2 hz h).2.1
  | svdV _ hf h2 hz h ih => exact (svd_keeps ih hf h2 hz h).2.2

/-- So no entry outside the allowed blocks is ever anything but zero. -/
theorem C13_entries_partial {t : BT G R} (h : Reachable t) (e k o : List Nat) (hl : locateAll t.shape e = some (k, o))
    (hne : entry t.shape t.blocks e ≠ 0) : Allowed t.shape t.rule k := by
  simp only [entry, hl] at hne
  rcases hk : lookup t.blocks k with _ | b
  · simp [hk] at hne
  · obtain ⟨s, h1, _, h3⟩ := (C13_history_partial h).2 k b (mem_of_lookup hk)
    exact ⟨s, h1, h3⟩

end

/-! ### The hypotheses are met, and the premises of `Reachable` are needed -/

/-- A history: a tensor is built block by block, conjugated, contracted with itself, permuted and reshaped. -/
example : ∃ a b c d r : BT ℤ ℤ, blockAssign (sparseZeros ex18.shape ex18.rule) [1, 1] ⟨[1, 2], fun _ => 3⟩ = .ok a ∧ b = conj id a ∧
    tensordot 9 a b [1] [1] = some (.ok c) ∧ permute c [1, 0] = .ok d ∧ reshape d [] = .ok r ∧ r.blocks ≠ [] ∧ Reachable r := by
  have ra : Reachable (⟨ex18.shape, ex18.rule, [([1, 1], ⟨[1, 2], fun _ => 3⟩)]⟩ : BT ℤ ℤ) :=
    .insert (k := [1, 1]) (v := ⟨[1, 2], fun _ => 3⟩) (.sparse ex18.shape ex18.rule) ⟨_, rfl, rfl⟩ rfl
  have rb := Reachable.conj id ra
  refine ⟨_, _, _, _, _, rfl, rfl, rfl, rfl, rfl, by simp [sortKeys], ?_⟩
  refine .reshape (cuts := []) (.permute (p := [1, 0])
    (.tensordot (da := [1]) (db := [1]) (fuel := 9) ra rb ?_ (by decide) (by decide) rfl) rfl) rfl
  intro ca cb h1 h2
  cases h1; cases h2; rfl

/-- Asking for an absent block leaves an undefined one behind: the access alone breaks the property. -/
theorem C13_access_fails {G R : Type} [AddCommMonoid G] [DecidableEq G] [Zero R] (t : BT G R) (hc : Conserving t.shape t.rule t.blocks)
    (k : List Nat) (secs : List (Nat × G)) (h1 : sections t.shape k = some secs) (h2 : charge secs = t.rule)
    (habs : lookup t.blocks k = none) (hne : secs.map Prod.fst ≠ [0]) :
    ∃ t' i, block t k = .ok (t', i) ∧ ¬ Conserving t'.shape t'.rule t'.blocks := by
  obtain ⟨t', i, e, hs, _, hso, _, hl⟩ := (C16_block_partial t hc.sorted k (sections_inRange h1)).1 ⟨secs, h1, h2⟩
  refine ⟨t', i, e, fun h => ?_⟩
  have := hl k
  rw [if_pos rfl, habs] at this
  obtain ⟨s', q1, _, q3⟩ := h.block k _ (mem_of_lookup this)
  rw [hs, h1] at q1
  cases q1
  exact hne q3.symm

/-- An index outside the grid is not refused (the charge is read from the next dimension). -/
theorem C13_outside_fails : ∃ t r : BT ℤ ℤ, Reachable t ∧ blockAssign t [1, 0] ⟨[1, 1], fun _ => 1⟩ = .ok r ∧
    ¬ Conserving r.shape r.rule r.blocks := by
  refine ⟨sparseZeros [[(1, 0)], [(1, 0)]] 0, _, .sparse _ _, rfl, fun h => ?_⟩
  obtain ⟨s, q1, _⟩ := h.block [1, 0] _ (.head _)
  cases q1

/-- A tensor of the wrong size is not refused. -/
theorem C13_size_fails : ∃ t r : BT ℤ ℤ, Reachable t ∧ blockAssign t [0, 0] ⟨[2, 1], fun _ => 1⟩ = .ok r ∧
    ¬ Conserving r.shape r.rule r.blocks := by
  refine ⟨sparseZeros [[(1, 0)], [(1, 0)]] 0, _, .sparse _ _, rfl, fun h => ?_⟩
  obtain ⟨s, q1, _, q3⟩ := h.block [0, 0] _ (.head _)
  cases q1
  cases q3

/-- A factory on a layout with a dimension without sections makes a block that is outside the grid. -/
theorem C13_empty_dimension_fails (n : Nat) : ∃ r : BT ℤ ℤ,
    factoryWrap (fun _ _ _ => 1) (n + 1) (sparseZeros [[], [(1, 0)]] 0) = some (.ok r) ∧ ¬ Conserving r.shape r.rule r.blocks := by
  refine ⟨_, rfl, fun h => ?_⟩
  obtain ⟨s, q1, _⟩ := h.block [0, 0] _ (.head _)
  cases q1

/-- `add` accepts tensors whose sections are divided differently among the dimensions, and then keeps blocks that are outside the
grid. -/
theorem C13_add_fails : ∃ a b r : BT ℤ ℤ, Reachable a ∧ Reachable b ∧ add a b 1 = .ok r ∧ ¬ Conserving r.shape r.rule r.blocks := by
  refine ⟨sparseZeros [[(1, 0)], [(1, 0), (1, 0)]] 0, ⟨[[(1, 0), (1, 0)], [(1, 0)]], 0, [([1, 0], ⟨[1, 1], fun _ => 1⟩)]⟩, _, .sparse _ _,
    .insert (t := sparseZeros [[(1, 0), (1, 0)], [(1, 0)]] 0) (k := [1, 0]) (v := ⟨[1, 1], fun _ => 1⟩) (.sparse _ _) ⟨_, rfl, rfl⟩ rfl, rfl, fun h => ?_⟩
  obtain ⟨s, q1, _⟩ := h.block [1, 0] _ (.head _)
  cases q1

/-- A view that fixes a last dimension keeps blocks of other positions. -/
theorem C13_view_fails : ∃ t r : BT ℤ ℤ, Reachable t ∧ Picks t.shape [-1, 0] ∧ basicCreateView t [-1, 0] false = .ok r ∧
    ¬ Conserving r.shape r.rule r.blocks := by
  obtain ⟨t, r, hc, _, hp, hv, hn, _⟩ := C30_trailing_fails
  exact ⟨t, r, .construct hc.sorted (mkChecked_ok hc.block), hp, hv, hn⟩

/-- `cval_shift_` by anything but the neutral charge breaks the property of every tensor that has a block. -/
theorem C13_shift_fails (t : BT ℤ ℤ) (h : Reachable t) (hne : t.blocks ≠ []) (shift : ℤ) (hs : shift ≠ 0) (dim : Nat)
    (hd : dim < t.shape.length) : ∃ t', cvalShift t shift dim = .ok t' ∧ ¬ Conserving t'.shape t'.rule t'.blocks := by
  obtain ⟨h1, h2⟩ := C13_history_partial h
  refine C28_shift_fails t ⟨h1, fun k b hk => ?_⟩ hne shift hs dim hd
  obtain ⟨s, q1, q2, q3⟩ := h2 k b hk
  exact ⟨s, q1, q3, q2⟩

end BT
end QuantiT
