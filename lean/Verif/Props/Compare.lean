import Verif.Lemmas.Compare
import Verif.Props.BTensorOps
import Mathlib.Algebra.Order.Ring.Rat
/-
C92: `allclose` on block tensors.  C93: adding a number.  C94: dividing a number.
-/
namespace QuantiT
namespace BT
open Spec FM
variable {G K R : Type}

/-! ## C92 -/

/-- What `allclose` computes, for all conserving tensors of the same shape and rule: every entry is compared with the
criterion of dense tensors, except that where only the second tensor stores a block its entries must be within the absolute
tolerance. -/
theorem C92_allclose_exact_partial [AddCommMonoid G] [DecidableEq G] [Field K] [LinearOrder K] [IsStrictOrderedRing K]
    (rtol atol : K) (a b : BT G K) (ha : Conserving a.shape a.rule a.blocks) (hb : Conserving b.shape b.rule b.blocks)
    (hsh : a.shape = b.shape) (hr : a.rule = b.rule) (hat : 0 ≤ atol) :
    ∃ c, allclose rtol atol a b = .ok c ∧ (c = true ↔ ∀ e k o, locateAll a.shape e = some (k, o) →
      if (lookup a.blocks k).isSome then CloseNum rtol atol (entry a.shape a.blocks e) (entry b.shape b.blocks e)
      else |entry b.shape b.blocks e| ≤ atol) := by
  have hdims : ∀ k x y, lookup a.blocks k = some x → lookup b.blocks k = some y → x.dims = y.dims := by
    intro k x y hx hy
    obtain ⟨s1, h1, _, h3⟩ := ha.block k x (mem_of_lookup hx)
    obtain ⟨s2, h4, _, h6⟩ := hb.block k y (mem_of_lookup hy)
    rw [← hsh, h1] at h4
    cases h4
    rw [h3, h6]
  obtain ⟨c, h1, h2⟩ := closeLoop_spec rtol atol (a.blocks.length + b.blocks.length) a.blocks b.blocks (le_refl _) ha.sorted
    hb.sorted hdims
  refine ⟨c, ?_, ?_⟩
  · unfold allclose
    rw [if_pos (by simp [sameShape, hsh, hr]), h1]
  · rw [h2]
    have hz : ∀ x : K, CloseNum rtol atol x 0 ↔ |x| ≤ atol := by intro x; simp [CloseNum]
    constructor
    · intro h e k o hl
      have hk := h k
      obtain ⟨secs, hsec, hin⟩ := locateAll_sections hl
      have hla : entry a.shape a.blocks e = match lookup a.blocks k with | none => 0 | some x => x.f o := by
        simp only [entry, hl]
        cases lookup a.blocks k <;> rfl
      have hlb : entry b.shape b.blocks e = match lookup b.blocks k with | none => 0 | some x => x.f o := by
        simp only [entry, ← hsh, hl]
        cases lookup b.blocks k <;> rfl
      have hin' : ∀ x, lookup a.blocks k = some x ∨ lookup b.blocks k = some x → InRange o x.dims := by
        rintro x (hx | hx)
        · obtain ⟨s1, h4, _, h6⟩ := ha.block k x (mem_of_lookup hx)
          rw [hsec] at h4; cases h4; rw [h6]; exact hin
        · obtain ⟨s1, h4, _, h6⟩ := hb.block k x (mem_of_lookup hx)
          rw [← hsh, hsec] at h4; cases h4; rw [h6]; exact hin
      rcases hxa : lookup a.blocks k with _ | x <;> rcases hxb : lookup b.blocks k with _ | y <;>
        simp only [hxa, hxb, PairClose] at hk hla hlb <;> rw [hla, hlb]
      · simp [hat]
      · simpa using (hz _).mp (hk o (hin' y (Or.inr hxb)))
      · simpa using hk o (hin' x (Or.inl hxa))
      · simpa using hk o (hin' x (Or.inl hxa))
    · intro h k
      rcases hxa : lookup a.blocks k with _ | x <;> rcases hxb : lookup b.blocks k with _ | y <;> simp only [PairClose]
      · intro o ho
        obtain ⟨secs, h4, _, h6⟩ := hb.block k y (mem_of_lookup hxb)
        rw [h6] at ho
        obtain ⟨e, he⟩ := locateAll_at h4 ho
        have := h e k o (by rw [hsh]; exact he)
        simp only [hxa, entry, he, hxb] at this
        rw [hz]; simpa using this
      · intro o ho
        obtain ⟨secs, h4, _, h6⟩ := ha.block k x (mem_of_lookup hxa)
        rw [h6] at ho
        obtain ⟨e, he⟩ := locateAll_at h4 ho
        have := h e k o he
        simpa only [hxa, entry, ← hsh, he, hxb, Option.isSome_some, if_true] using this
      · intro o ho
        obtain ⟨secs, h4, _, h6⟩ := ha.block k x (mem_of_lookup hxa)
        rw [h6] at ho
        obtain ⟨e, he⟩ := locateAll_at h4 ho
        have := h e k o he
        simpa only [hxa, entry, ← hsh, he, hxb, Option.isSome_some, if_true] using this

/-- `C92`: `allclose` answers yes only when all entries are close. -/
theorem C92_allclose_sound [AddCommMonoid G] [DecidableEq G] [Field K] [LinearOrder K] [IsStrictOrderedRing K] (rtol atol : K) (a b : BT G K)
    (ha : Conserving a.shape a.rule a.blocks) (hb : Conserving b.shape b.rule b.blocks) (hsh : a.shape = b.shape)
    (hr : a.rule = b.rule) (hat : 0 ≤ atol) (hrt : 0 ≤ rtol) (h : allclose rtol atol a b = .ok true) :
    CloseEntries rtol atol a.shape a.blocks b.blocks := by
  obtain ⟨c, h1, h2⟩ := C92_allclose_exact_partial rtol atol a b ha hb hsh hr hat
  rw [h1] at h
  injection h with h
  intro e he
  obtain ⟨⟨k, o⟩, hl⟩ := locateAll_isSome.mpr he
  have := h2.mp h e k o hl
  rw [← hsh] at this
  by_cases hk : (lookup a.blocks k).isSome = true
  · rw [if_pos hk] at this; exact this
  · rw [if_neg hk] at this
    have hz : entry a.shape a.blocks e = 0 := by
      simp only [entry, hl]
      cases hx : lookup a.blocks k with
      | none => rfl
      | some x => simp [hx] at hk
    unfold CloseNum
    rw [hz, zero_sub, abs_neg]
    exact this.trans (le_add_of_nonneg_right (mul_nonneg hrt (abs_nonneg _)))

/-- `C92`, the exact criterion of dense tensors, when the second tensor stores no block that the first does not; and for
`rtol = 0` always. -/
theorem C92_allclose_partial [AddCommMonoid G] [DecidableEq G] [Field K] [LinearOrder K] [IsStrictOrderedRing K] (rtol atol : K) (a b : BT G K)
    (ha : Conserving a.shape a.rule a.blocks) (hb : Conserving b.shape b.rule b.blocks) (hsh : a.shape = b.shape)
    (hr : a.rule = b.rule) (hat : 0 ≤ atol)
    (hst : rtol = 0 ∨ ∀ k, (lookup b.blocks k).isSome → (lookup a.blocks k).isSome) :
    ∃ c, allclose rtol atol a b = .ok c ∧ (c = true ↔ CloseEntries rtol atol a.shape a.blocks b.blocks) := by
  obtain ⟨c, h1, h2⟩ := C92_allclose_exact_partial rtol atol a b ha hb hsh hr hat
  refine ⟨c, h1, h2.trans ?_⟩
  have key : ∀ e k o, locateAll a.shape e = some (k, o) →
      ((if (lookup a.blocks k).isSome then CloseNum rtol atol (entry a.shape a.blocks e) (entry b.shape b.blocks e)
      else |entry b.shape b.blocks e| ≤ atol) ↔ CloseNum rtol atol (entry a.shape a.blocks e) (entry a.shape b.blocks e)) := by
    intro e k o hl
    rw [← hsh]
    by_cases hk : (lookup a.blocks k).isSome = true
    · rw [if_pos hk]
    · rw [if_neg hk]
      have hz : entry a.shape a.blocks e = 0 := by
        simp only [entry, hl]
        cases hx : lookup a.blocks k with
        | none => rfl
        | some x => simp [hx] at hk
      unfold CloseNum
      rw [hz, zero_sub, abs_neg]
      rcases hst with h0 | hst
      · simp [h0]
      · have hbz : entry a.shape b.blocks e = 0 := by
          simp only [entry, hl]
          cases hx : lookup b.blocks k with
          | none => rfl
          | some x => exact absurd (hst k (by simp [hx])) hk
        simp [hbz]
  constructor
  · intro h e he
    obtain ⟨⟨k, o⟩, hl⟩ := locateAll_isSome.mpr he
    exact (key e k o hl).mp (h e k o hl)
  · intro h e k o hl
    exact (key e k o hl).mpr (h e (locateAll_isSome.mp ⟨_, hl⟩))

/-- `C92` is false of the code: it depends on which zeros are stored.  An entry of `b` within the tolerance of zero, relative
part included, but not within the absolute part, makes `allclose(0, b)` false when the zero stores no block. -/
theorem C92_allclose_fails [AddCommMonoid G] [DecidableEq G] [Field K] [LinearOrder K] [IsStrictOrderedRing K] (rtol atol : K) (b : BT G K)
    (hb : Conserving b.shape b.rule b.blocks) (hat : 0 ≤ atol) {e : List Nat} (he : InRange e (b.shape.map dimSize))
    (hbig : atol < |entry b.shape b.blocks e|)
    (hall : ∀ e, |entry b.shape b.blocks e| ≤ atol + rtol * |entry b.shape b.blocks e|) :
    CloseEntries rtol atol b.shape [] b.blocks ∧ allclose rtol atol (sparseZeros b.shape b.rule) b = .ok false := by
  constructor
  · intro e _
    have hz : entry b.shape ([] : List (List Nat × Blk K)) e = 0 := by
      unfold entry; cases locateAll b.shape e <;> rfl
    unfold CloseNum
    rw [hz, zero_sub, abs_neg]
    exact hall e
  · obtain ⟨c, h1, h2⟩ := C92_allclose_exact_partial rtol atol (sparseZeros b.shape b.rule) b
      ⟨.nil, by intro k x h; simp [sparseZeros] at h⟩ hb rfl rfl hat
    rw [h1]
    cases c with
    | false => rfl
    | true =>
      exfalso
      obtain ⟨⟨k, o⟩, hl⟩ := locateAll_isSome.mpr he
      have := h2.mp rfl e k o hl
      rw [if_neg (by simp [sparseZeros, lookup])] at this
      exact absurd this (not_le.mpr hbig)

/-- Tensors of different shapes can be found close: how the sections are divided among the dimensions is not compared.  A
row of sections and a column of sections, without blocks, are equal for every tolerance. -/
theorem C92_shapes_fails [AddCommMonoid G] [DecidableEq G] [Field K] [LinearOrder K] (rtol atol : K) (d1 d2 : Dim G) (s : Nat × G) (rule : G) :
    allclose rtol atol (sparseZeros [d1, s :: d2] rule) (sparseZeros [d1 ++ [s], d2] rule) = .ok true := by
  unfold allclose
  rw [if_pos (by simp [sameShape, sparseZeros])]
  rfl

theorem flatten_divided {α : Type} : ∀ {a b : List (List α)}, a.map List.length = b.map List.length → a.flatten = b.flatten → a = b
  | [], [], _, _ => rfl
  | [], _ :: _, h, _ => by simp at h
  | _ :: _, [], h, _ => by simp at h
  | x :: a, y :: b, h, hf => by
    simp only [List.map_cons, List.cons.injEq] at h
    rw [List.flatten_cons, List.flatten_cons] at hf
    obtain ⟨h1, h2⟩ := List.append_inj hf h.1
    rw [h1, flatten_divided h.2 h2]

/-- `C92` (partial: with as many sections in every dimension, see `C92_shapes_fails`): tensors of different selection rules, or of
different sizes or charges of a section, are not close, whatever the tolerances. -/
theorem C92_different_partial [AddCommMonoid G] [DecidableEq G] [Field K] [LinearOrder K] (rtol atol : K) (a b : BT G K)
    (h : a.rule ≠ b.rule ∨ a.shape.map List.length = b.shape.map List.length ∧ a.shape ≠ b.shape) :
    allclose rtol atol a b = .ok false := by
  unfold allclose
  rw [if_neg]
  simp only [sameShape, decide_eq_true_eq]
  rintro ⟨h1, h2, h3⟩
  rcases h with h | ⟨h4, h5⟩
  · exact h h2
  · refine h5 (flatten_divided h4 ?_)
    have : ∀ {x y : List (Nat × G)}, x.map Prod.snd = y.map Prod.snd → x.map Prod.fst = y.map Prod.fst → x = y := by
      intro x
      induction x with
      | nil => intro y hy _; cases y with | nil => rfl | cons _ _ => cases hy
      | cons p x ih =>
        intro y hy hz
        cases y with
        | nil => cases hy
        | cons q y =>
          simp only [List.map_cons, List.cons.injEq] at hy hz
          rw [ih hy.2 hz.2, Prod.ext hz.1 hy.1]
    exact this h1 h3

/-- The same blocks with two rules, and with two charges. -/
example : allclose 1 1 (⟨[[(1, 0)]], 0, []⟩ : BT Int ℚ) ⟨[[(1, 0)]], 1, []⟩ = .ok false ∧
    allclose 1 1 (⟨[[(1, 0)]], 0, []⟩ : BT Int ℚ) ⟨[[(1, 2)]], 0, []⟩ = .ok false :=
  ⟨C92_different_partial _ _ _ _ (.inl (by decide)), C92_different_partial _ _ _ _ (.inr (by decide))⟩

theorem ex18q_conserving (x : ℚ) : Conserving (R := ℚ) [[(2, (0 : Int)), (1, 1)], [(1, 0), (2, -1)]] 0
    [([0, 0], ⟨[2, 1], fun _ => x⟩), ([1, 1], ⟨[1, 2], fun _ => x⟩)] := by
  refine ⟨by unfold Sorted; simp; decide, ?_⟩
  intro k b h
  simp only [List.mem_cons, List.not_mem_nil, or_false, Prod.mk.injEq] at h
  rcases h with ⟨rfl, rfl⟩ | ⟨rfl, rfl⟩
  · exact ⟨[(2, 0), (1, 0)], rfl, by simp [charge], rfl⟩
  · exact ⟨[(1, 1), (2, -1)], rfl, by simp [charge], rfl⟩

/-- Two close tensors with blocks; the hypotheses of the theorems above. -/
example : allclose (1 / 10) (1 / 100) (⟨[[(2, (0 : Int)), (1, 1)], [(1, 0), (2, -1)]], 0,
      [([0, 0], ⟨[2, 1], fun _ => (1 : ℚ)⟩), ([1, 1], ⟨[1, 2], fun _ => 1⟩)]⟩ : BT Int ℚ)
    ⟨[[(2, 0), (1, 1)], [(1, 0), (2, -1)]], 0, [([0, 0], ⟨[2, 1], fun _ => 21 / 20⟩), ([1, 1], ⟨[1, 2], fun _ => 21 / 20⟩)]⟩ = .ok true := by
  decide +kernel

/-- The case of `C92_allclose_fails`, with `rtol = 1`, `atol = 0`: entries equal to 1 against zeros that are not stored. -/
example : ∃ b : BT Int ℚ, Conserving b.shape b.rule b.blocks ∧ InRange [0, 0] (b.shape.map dimSize) ∧
    (0 : ℚ) < |entry b.shape b.blocks [0, 0]| ∧
    ∀ e, |entry b.shape b.blocks e| ≤ 0 + 1 * |entry b.shape b.blocks e| :=
  ⟨⟨_, _, _⟩, ex18q_conserving 1, by unfold InRange; decide, by decide +kernel, fun e => by simp⟩

/-! ## C93 -/

/-- `C93`: `t.add(c, alpha)`, `t.sub(c, …)` and `t += c`: every entry that the selection rule allows grows by `c*alpha`, the
others stay zero.  Both the result of `add` and the target of `add_`. -/
theorem C93_add_scalar [AddCommMonoid G] [DecidableEq G] [Semiring R] (t : BT G R) (ht : Conserving t.shape t.rule t.blocks)
    (hpos : ∀ d ∈ t.shape, d ≠ []) (c alpha : R) :
    ∃ fuel r r', addScalar c alpha fuel t = some (.ok r) ∧ addScalarIn c alpha fuel t = some (.ok r') ∧
      r.shape = t.shape ∧ r.rule = t.rule ∧ r'.shape = t.shape ∧ r'.rule = t.rule ∧
      Conserving r.shape r.rule r.blocks ∧ Conserving r'.shape r'.rule r'.blocks ∧
      ∀ e k o, locateAll t.shape e = some (k, o) →
        entry r.shape r.blocks e = (if Allowed t.shape t.rule k then c * alpha else 0) + entry t.shape t.blocks e ∧
        entry r'.shape r'.blocks e = entry t.shape t.blocks e + (if Allowed t.shape t.rule k then c * alpha else 0) := by
  obtain ⟨fuel, f, h1, h2, h3, h4, h5, h6⟩ := C15_factory_partial t.shape t.rule hpos (fun _ _ _ => c * alpha)
  have hcf : Conserving f.shape f.rule f.blocks := by
    refine ⟨h4, ?_⟩
    intro k b hk
    have hl := lookup_of_mem h4 hk
    by_cases hal : Allowed t.shape t.rule k
    · obtain ⟨secs, hs, hc⟩ := hal
      rw [h5 k secs hs hc] at hl
      simp only [Option.some.injEq] at hl
      exact ⟨secs, by rw [h2]; exact hs, by rw [h3]; exact hc, by rw [← hl]⟩
    · rw [h6 k hal] at hl; cases hl
  have hef : ∀ e k o, locateAll t.shape e = some (k, o) →
      entry f.shape f.blocks e = if Allowed t.shape t.rule k then c * alpha else 0 := by
    intro e k o hl
    by_cases hal : Allowed t.shape t.rule k
    · rw [if_pos hal]
      obtain ⟨secs, hs, hc⟩ := hal
      simp only [entry, h2, hl, h5 k secs hs hc]
    · rw [if_neg hal]
      simp only [entry, h2, hl, h6 k hal]
  obtain ⟨r, r1, r2, r3, r4, r5⟩ := C21_add_one_partial f t hcf ht h2 h3
  obtain ⟨r', q1, q2, q3, q4, q5⟩ := C21_add_one_partial t f ht hcf h2.symm h3.symm
  refine ⟨fuel, r, r', ?_, ?_, by rw [r2, h2], by rw [r3, h3], q2, q3, r4, q4, ?_⟩
  · simp only [addScalar, fullLike, h1, Option.map_some, bind, Except.bind, r1]
  · simp only [addScalarIn, fullLike, h1, Option.map_some, bind, Except.bind, q1]
  · intro e k o hl
    have hin := locateAll_isSome.mp ⟨_, hl⟩
    constructor
    · rw [r5 e (by rw [h2]; exact hin), hef e k o hl, one_mul]
    · rw [q5 e hin, hef e k o hl, one_mul]

example : ∀ d ∈ ex18.shape, d ≠ [] := by decide

/-! ## C94 -/

/-- `C94` is false of the code: `c / t` writes past the end of a list of blocks whenever `t` stores one. -/
theorem C94_scalar_div_fails [Field K] (c : K) (t : BT G K) (h : t.blocks ≠ []) : scalarDiv c t = Res.ub := by
  unfold scalarDiv sparseZeros
  cases hb : t.blocks with
  | nil => exact absurd hb h
  | cons e es => rfl

/-- Without blocks there is nothing to write. -/
theorem C94_scalar_div_partial [Field K] (c : K) (t : BT G K) (h : t.blocks = []) : scalarDiv c t = .ok t := by
  rcases t with ⟨sh, r, bl⟩
  simp only at h
  subst h
  rfl

end BT
end QuantiT
