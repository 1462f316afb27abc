import Verif.Model.Truncate
import Verif.Spec.Truncate
import Mathlib.Order.Bounds.Basic
import Mathlib.Algebra.Order.BigOperators.Group.List
import Mathlib.Tactic.Linarith
import Mathlib.Tactic.NormNum
/-
C37-C39: truncation of dense decompositions.
-/
namespace QuantiT
open Spec LA
variable {α : Type} [Field α] [LinearOrder α] [IsStrictOrderedRing α]

theorem toU64_natCast {i : Nat} (h : i < 2 ^ 63) : toU64 (i : Int) = i := by
  unfold toU64
  rw [Int.emod_eq_of_lt (by omega) (by omega)]
  simp

theorem Rows.col_nat (d : Rows α) (i : Nat) (h : i < d.n) :
    d.col (i : Int) = .ok (d.rows.map fun r => r.getD i 0) := by
  unfold Rows.col
  rw [if_pos (by omega)]
  simp

theorem weight_nil (pw : α → α) : weight pw ([] : List α) = 0 := rfl

theorem weight_drop (pw : α → α) (r : List α) (i : Nat) (h : i < r.length) :
    weight pw (r.drop i) = weight pw (r.drop (i + 1)) + pw |r.getD i 0| := by
  rw [List.drop_eq_getElem_cons h]
  simp [weight, h, add_comm]

theorem weight_nonneg {pw : α → α} (hpw : ∀ x, 0 ≤ x → 0 ≤ pw x) (l : List α) : 0 ≤ weight pw l := by
  unfold weight
  apply List.sum_nonneg
  intro x hx
  obtain ⟨y, -, rfl⟩ := List.mem_map.mp hx
  exact hpw _ (abs_nonneg y)

theorem weight_antitone {pw : α → α} (hpw : ∀ x, 0 ≤ x → 0 ≤ pw x) (r : List α) {i j : Nat} (h : i ≤ j) :
    weight pw (r.drop j) ≤ weight pw (r.drop i) := by
  obtain ⟨k, rfl⟩ := Nat.exists_eq_add_of_le h
  rw [← List.drop_drop]
  conv_rhs => rw [← List.take_append_drop k (r.drop i)]
  have := weight_nonneg hpw ((r.drop i).take k)
  simp only [weight, List.map_append, List.sum_append] at this ⊢
  linarith

theorem losesAtMost_mono {pw : α → α} (hpw : ∀ x, 0 ≤ x → 0 ≤ pw x) {b : α} {rows : List (List α)} {i j : Nat}
    (h : i ≤ j) (hi : LosesAtMost pw b rows i) : LosesAtMost pw b rows j :=
  fun r hr => (weight_antitone hpw r h).trans (hi r hr)

/-- The number of values that should be kept: between `min(min_size, n)` and `n`, enough to lose at most
`tol^pow`, and no more. -/
def NeededSize (pw : α → α) (bound : α) (d : Rows α) (minS : Nat) (k : Nat) : Prop :=
  IsLeast {j | min minS d.n ≤ j ∧ j ≤ d.n ∧ LosesAtMost pw bound d.rows j} k

theorem zipWith_col (pw : α → α) (d : Rows α) (hd : ∀ r ∈ d.rows, r.length = d.n) (l : Nat) (hl : l + 1 ≤ d.n) :
    List.zipWith (· + ·) (d.rows.map fun r => weight pw (r.drop (l + 1)))
      ((d.rows.map fun r => r.getD l 0).map fun x => pw |x|) = d.rows.map fun r => weight pw (r.drop l) := by
  generalize d.n = n at *
  generalize d.rows = rows at *
  induction rows with
  | nil => rfl
  | cons r rows ih =>
    simp only [List.map_cons, List.zipWith_cons_cons]
    rw [ih (fun r hr => hd r (List.mem_cons_of_mem _ hr))]
    rw [weight_drop pw r l (by rw [hd r List.mem_cons_self]; omega)]

theorem lastLoop_eq {pw : α → α} (hpw : ∀ x, 0 ≤ x → 0 ≤ pw x) (bound : α) (d : Rows α)
    (hd : ∀ r ∈ d.rows, r.length = d.n) (hn : d.n < 2 ^ 63) (minS maxS k0 : Nat) (hmin : 1 ≤ minS)
    (hk : NeededSize pw bound d minS k0) :
    ∀ l, l < d.n → max (min minS d.n) (min k0 maxS) ≤ l + 1 →
      lastLoop d pw bound minS maxS (l : Int) (d.rows.map fun r => weight pw (r.drop l)) =
        .ok ((max (min minS d.n) (min k0 maxS) : Nat) - 1 : Int) := by
  intro l
  induction l with
  | zero =>
    intro hl hK
    rw [lastLoop, if_pos (by rw [toU64_natCast (by omega)]; omega)]
    congr 1; omega
  | succ l ih =>
    intro hl hK
    obtain ⟨⟨hk1, hk2, hk3⟩, hk4⟩ := hk
    rw [lastLoop, toU64_natCast (by omega)]
    by_cases h1 : l + 1 < minS
    · rw [if_pos h1]
      congr 1; omega
    rw [if_neg h1]
    by_cases h2 : ((d.rows.map fun r => weight pw (r.drop (l + 1))).any (fun t => decide (bound < t))) ∧ l + 1 < maxS
    · rw [if_pos h2]
      have : l + 1 < k0 := by
        by_contra hc
        have h3 := losesAtMost_mono hpw (not_lt.mp hc) hk3
        obtain ⟨t, ht, hlt⟩ := List.any_eq_true.mp h2.1
        obtain ⟨r, hr, rfl⟩ := List.mem_map.mp ht
        exact absurd (h3 r hr) (not_le.mpr (by simpa using hlt))
      congr 1; omega
    rw [if_neg h2]
    have h4 : k0 ≤ l + 1 ∨ maxS ≤ l + 1 := by
      by_contra hc
      push Not at hc
      apply h2
      refine ⟨?_, hc.2⟩
      by_contra ha
      have : LosesAtMost pw bound d.rows (l + 1) := by
        intro r hr
        by_contra hb
        apply ha
        rw [List.any_eq_true]
        exact ⟨_, List.mem_map.mpr ⟨r, hr, rfl⟩, by simpa using hb⟩
      have := hk4 ⟨by omega, by omega, this⟩
      omega
    have e : ((l + 1 : Nat) : Int) - 1 = (l : Int) := by omega
    have hc : d.col (((l + 1 : Nat) : Int) - 1) = .ok (d.rows.map fun r => r.getD l 0) := by
      rw [e]; exact Rows.col_nat d l (by omega)
    split
    · rename_i e' he; rw [hc] at he; cases he
    · rename_i c' he
      rw [hc] at he; cases he
      rw [zipWith_col pw d hd l (by omega), e]
      exact ih (by omega) (by omega)

theorem needed_exists {pw : α → α} (bound : α) (hb : 0 ≤ bound) (d : Rows α)
    (hd : ∀ r ∈ d.rows, r.length = d.n) (minS : Nat) : ∃ k, NeededSize pw bound d minS k := by
  classical
  have hne : ∃ j, min minS d.n ≤ j ∧ j ≤ d.n ∧ LosesAtMost pw bound d.rows j :=
    ⟨d.n, by omega, le_refl _, fun r hr => by
      rw [List.drop_eq_nil_of_le (by rw [hd r hr])]; exact hb⟩
  exact ⟨Nat.find hne, Nat.find_spec hne, fun j hj => Nat.find_min' hne hj⟩

/-- C37 in one formula: `compute_last_index` keeps (it returns the last kept index) the least number of values
that loses at most `tol^pow` and is at least `min_size`, cut down to `max_size` if that is smaller, but never
below `min_size`. -/
theorem C37_exact (d : Rows α) (hd : ∀ r ∈ d.rows, r.length = d.n) (hn : 1 ≤ d.n) (hn2 : d.n < 2 ^ 63)
    (tol : α) (pw : α → α) (hpw : ∀ x, 0 ≤ x → 0 ≤ pw x) (htol : 0 ≤ tol) (minS maxS : Nat) (hmin : 1 ≤ minS) :
    ∃ k0, NeededSize pw (pw tol) d minS k0 ∧
      computeLastIndex d tol pw minS maxS = .ok ((max (min minS d.n) (min k0 maxS) : Nat) - 1 : Int) := by
  obtain ⟨k0, hk⟩ := needed_exists (pw tol) (hpw tol htol) d hd minS
  refine ⟨k0, hk, ?_⟩
  have e : ((d.n : Int) - 1) = ((d.n - 1 : Nat) : Int) := by omega
  unfold computeLastIndex
  rw [e, Rows.col_nat d _ (by omega)]
  simp only [bind, Except.bind]
  have h1 : ((d.rows.map fun r => r.getD (d.n - 1) 0).map fun x => pw |x|) =
      d.rows.map fun r => weight pw (r.drop (d.n - 1)) := by
    rw [List.map_map]
    apply List.map_congr_left
    intro r hr
    have := hd r hr
    rw [weight_drop pw r _ (by omega), List.drop_eq_nil_of_le (by omega), weight_nil, zero_add]
    rfl
  rw [h1]
  have := hk.1
  exact lastLoop_eq hpw _ d hd hn2 minS maxS k0 hmin hk _ (by omega) (by have := this.2.1; omega)

/-- C37. `compute_last_index` succeeds and keeps `k` values, where `k` is at least `min_size` (or all there are)
and at most `max(min_size, max_size)`; the discarded weight is at most `tol^pow` in every row unless `max_size`
forces to discard more; and fewer values would either be less than `min_size` or lose more than `tol^pow`. -/
theorem C37_truncation (d : Rows α) (hd : ∀ r ∈ d.rows, r.length = d.n) (hn : 1 ≤ d.n) (hn2 : d.n < 2 ^ 63)
    (tol : α) (pw : α → α) (hpw : ∀ x, 0 ≤ x → 0 ≤ pw x) (htol : 0 ≤ tol) (minS maxS : Nat) (hmin : 1 ≤ minS) :
    ∃ k : Nat, 1 ≤ k ∧ computeLastIndex d tol pw minS maxS = .ok ((k : Int) - 1) ∧
      min minS d.n ≤ k ∧ k ≤ d.n ∧ k ≤ max minS maxS ∧
      (k < maxS → LosesAtMost pw (pw tol) d.rows k) ∧
      (∀ j < k, minS ≤ j → ¬ LosesAtMost pw (pw tol) d.rows j) := by
  obtain ⟨k0, ⟨⟨hk1, hk2, hk3⟩, hk4⟩, hK⟩ := C37_exact d hd hn hn2 tol pw hpw htol minS maxS hmin
  refine ⟨max (min minS d.n) (min k0 maxS), by omega, hK, by omega, by omega, by omega, ?_, ?_⟩
  · intro h
    exact losesAtMost_mono hpw (by omega) hk3
  · intro j hj h1 hL
    have := hk4 ⟨by omega, by omega, hL⟩
    omega

omit [IsStrictOrderedRing α] in
/-- C37: the truncated factors of a decomposition are the first `k` columns of `u`, `d` and `v`, with the `k`
of `C37_truncation`. -/
theorem C37_factors (u d v : Rows α) (hu : u.n = d.n) (hv : v.n = d.n)
    (tol : α) (pw : α → α) (minS maxS : Nat) (k : Nat) (hk1 : 1 ≤ k) (hk2 : k ≤ d.n)
    (h : computeLastIndex d tol pw minS maxS = .ok ((k : Int) - 1)) :
    svdTruncated (u, d, v) tol minS maxS pw =
      .ok (⟨k, u.rows.map (·.take k)⟩, ⟨k, d.rows.map (·.take k)⟩, ⟨k, v.rows.map (·.take k)⟩) := by
  unfold svdTruncated truncate3
  simp only [h, bind, Except.bind, pure, Except.pure]
  have e : (k : Int) - 1 + 1 = k := by omega
  rw [e]
  have (t : Rows α) (ht : t.n = d.n) : t.sliceTo (k : Int) = ⟨k, t.rows.map (·.take k)⟩ := by
    unfold Rows.sliceTo
    rw [if_neg (by omega)]
    have : min (k : Int).toNat t.n = k := by rw [ht]; simp; omega
    simp only [this]
  rw [this u hu, this d rfl, this v hv]

/-- Four singular values, weight `x^2`, tolerance 1/2: the last two are dropped (0.09 + 0.16 ≤ 0.25), and keeping one only
would lose too much. -/
example : computeLastIndex (α := ℚ) ⟨4, [[2, 1, 2/5, 3/10]]⟩ (1/2) (fun x => x ^ 2) 1 10 = .ok 1 := by
  obtain ⟨k, h1, h, h2, h3, h4, h5, h6⟩ := C37_truncation (α := ℚ) ⟨4, [[2, 1, 2/5, 3/10]]⟩ (by simp) (by simp)
    (by norm_num) (1/2) (fun x => x ^ 2) (fun x _ => sq_nonneg x) (by norm_num) 1 10 le_rfl
  simp only at h3 h5 h6
  rw [h]
  have hk : k = 2 := by
    have a : ¬ 2 < k := fun hc => h6 2 hc (by omega) (by
      simp [LosesAtMost, weight]; norm_num)
    have b : ¬ k = 1 := fun hc => by
      have := h5 (by omega)
      subst hc
      simp [LosesAtMost, weight] at this
      norm_num at this
    omega
  rw [hk]; rfl

theorem lastLoop_zero (pw : α → α) (bound : α) (d : Rows α) (hd : ∀ r ∈ d.rows, r.length = d.n) (hn : d.n < 2 ^ 63) (maxS : Nat)
    (hmax : 1 ≤ maxS) (hb : ¬ LosesAtMost pw bound d.rows 0) : ∀ l, l < d.n →
      lastLoop d pw bound 0 maxS (l : Int) (d.rows.map fun r => weight pw (r.drop l)) =
        lastLoop d pw bound 1 maxS (l : Int) (d.rows.map fun r => weight pw (r.drop l)) := by
  intro l
  induction l with
  | zero =>
    intro hl
    have h2 : ((d.rows.map fun r => weight pw (r.drop 0)).any (fun t => decide (bound < t))) = true := by
      rw [List.any_eq_true]
      unfold LosesAtMost at hb
      push Not at hb
      obtain ⟨r, hr, h⟩ := hb
      exact ⟨_, List.mem_map.mpr ⟨r, hr, rfl⟩, by simpa using h⟩
    rw [lastLoop, lastLoop, toU64_natCast (by omega), if_neg (by omega), if_pos ⟨h2, by omega⟩, if_pos (by omega)]
  | succ l ih =>
    intro hl
    rw [lastLoop, lastLoop, toU64_natCast (by omega), if_neg (by omega : ¬ l + 1 < 0), if_neg (by omega : ¬ l + 1 < 1)]
    have e : ((l + 1 : Nat) : Int) - 1 = (l : Int) := by omega
    have hc : d.col (((l + 1 : Nat) : Int) - 1) = .ok (d.rows.map fun r => r.getD l 0) := by
      rw [e]; exact Rows.col_nat d l (by omega)
    split
    · rfl
    · split
      · rfl
      · rename_i c' he
        rw [hc] at he; cases he
        rw [zipWith_col pw d hd l (by omega), e]
        exact ih (by omega)

theorem computeLast_start (d : Rows α) (hd : ∀ r ∈ d.rows, r.length = d.n) (hn : 1 ≤ d.n) (tol : α) (pw : α → α) (minS maxS : Nat) :
    computeLastIndex d tol pw minS maxS =
      lastLoop d pw (pw tol) minS maxS ((d.n - 1 : Nat) : Int) (d.rows.map fun r => weight pw (r.drop (d.n - 1))) := by
  have e : ((d.n : Int) - 1) = ((d.n - 1 : Nat) : Int) := by omega
  unfold computeLastIndex
  rw [e, Rows.col_nat d _ (by omega)]
  simp only [bind, Except.bind]
  have h1 : ((d.rows.map fun r => r.getD (d.n - 1) 0).map fun x => pw |x|) =
      d.rows.map fun r => weight pw (r.drop (d.n - 1)) := by
    rw [List.map_map]
    apply List.map_congr_left
    intro r hr
    have := hd r hr
    rw [weight_drop pw r _ (by omega), List.drop_eq_nil_of_le (by omega), weight_nil, zero_add]
    rfl
  rw [h1]

/-- C37 with a `min_size` of zero: if the whole weight of some row is above the tolerance, it counts as a `min_size` of one. -/
theorem C37_zero_min (d : Rows α) (hd : ∀ r ∈ d.rows, r.length = d.n) (hn : 1 ≤ d.n) (hn2 : d.n < 2 ^ 63) (tol : α) (pw : α → α)
    (maxS : Nat) (hmax : 1 ≤ maxS) (hb : ¬ LosesAtMost pw (pw tol) d.rows 0) :
    computeLastIndex d tol pw 0 maxS = computeLastIndex d tol pw 1 maxS := by
  rw [computeLast_start d hd hn, computeLast_start d hd hn]
  exact lastLoop_zero pw _ d hd hn2 maxS hmax hb _ (by omega)

theorem lastLoop_below (pw : α → α) (bound : α) (d : Rows α) (maxS : Nat) (hmax : maxS + d.n < 2 ^ 64) : ∀ (k j : Nat), j + k = d.n → 1 ≤ j →
    ∀ tr, lastLoop d pw bound 0 maxS (-(j : Int)) tr = Res.throw .outOfRange := by
  intro k
  induction k with
  | zero =>
    intro j hj h1 tr
    rw [lastLoop, if_neg (by omega), if_neg (by unfold toU64; omega)]
    have hc : d.col (-(j : Int) - 1) = Res.throw .outOfRange := by
      unfold Rows.col
      rw [if_neg (by omega), if_neg (by omega)]
    split
    · rename_i e he; rw [hc] at he; cases he; rfl
    · rename_i c he; rw [hc] at he; cases he
  | succ k ih =>
    intro j hj h1 tr
    rw [lastLoop, if_neg (by omega), if_neg (by unfold toU64; omega)]
    have e : -(j : Int) - 1 = -((j + 1 : Nat) : Int) := by omega
    have hc : d.col (-(j : Int) - 1) = .ok (d.rows.map fun r => r.getD (-(j : Int) - 1 + d.n).toNat 0) := by
      unfold Rows.col
      rw [if_neg (by omega), if_pos (by omega)]
    split
    · rename_i e he; rw [hc] at he; cases he
    · rename_i c he
      rw [e]
      exact ih (j + 1) (by omega) (by omega) _

/-- With `min_size = 0` and a tolerance that covers the whole weight of every row the loop runs past the first value, wraps around
and ends with an index error. -/
theorem C37_zero_min_fails (d : Rows α) (hd : ∀ r ∈ d.rows, r.length = d.n) (hn : 1 ≤ d.n) (hn2 : d.n < 2 ^ 63) (tol : α) (pw : α → α)
    (hpw : ∀ x, 0 ≤ x → 0 ≤ pw x) (maxS : Nat) (hmax : maxS + d.n < 2 ^ 64) (hb : LosesAtMost pw (pw tol) d.rows 0) :
    computeLastIndex d tol pw 0 maxS = Res.throw .outOfRange := by
  rw [computeLast_start d hd hn]
  have H : ∀ l, l < d.n → lastLoop d pw (pw tol) 0 maxS (l : Int) (d.rows.map fun r => weight pw (r.drop l)) = Res.throw .outOfRange := by
    intro l
    have hnot : ¬ ((d.rows.map fun r => weight pw (r.drop l)).any (fun t => decide (pw tol < t)) ∧ toU64 (l : Int) < maxS) := by
      rintro ⟨h, -⟩
      obtain ⟨t, ht, hlt⟩ := List.any_eq_true.mp h
      obtain ⟨r, hr, rfl⟩ := List.mem_map.mp ht
      exact absurd (losesAtMost_mono hpw (Nat.zero_le l) hb r hr) (not_le.mpr (by simpa using hlt))
    induction l with
    | zero =>
      intro hl
      rw [lastLoop, if_neg (by omega), if_neg hnot]
      have hc : d.col (((0 : Nat) : Int) - 1) = .ok (d.rows.map fun r => r.getD (((0 : Nat) : Int) - 1 + d.n).toNat 0) := by
        unfold Rows.col
        rw [if_neg (by omega), if_pos (by omega)]
      split
      · rename_i e he; rw [hc] at he; cases he
      · exact lastLoop_below pw _ d maxS hmax (d.n - 1) 1 (by omega) (le_refl _) _
    | succ l ih =>
      intro hl
      rw [lastLoop, if_neg (by omega), if_neg hnot]
      have e : ((l + 1 : Nat) : Int) - 1 = (l : Int) := by omega
      have hc : d.col (((l + 1 : Nat) : Int) - 1) = .ok (d.rows.map fun r => r.getD l 0) := by
        rw [e]; exact Rows.col_nat d l (by omega)
      split
      · rename_i e he; rw [hc] at he; cases he
      · rename_i c' he
        rw [hc] at he; cases he
        rw [zipWith_col pw d hd l (by omega), e]
        refine ih ?_ (by omega)
        rintro ⟨h, -⟩
        obtain ⟨t, ht, hlt⟩ := List.any_eq_true.mp h
        obtain ⟨r, hr, rfl⟩ := List.mem_map.mp ht
        exact absurd (losesAtMost_mono hpw (Nat.zero_le l) hb r hr) (not_le.mpr (by simpa using hlt))
  exact H _ (by omega)

example : computeLastIndex (α := ℚ) ⟨1, [[1]]⟩ 1 (fun x => x ^ 2) 0 10 = Res.throw .outOfRange ∧
    computeLastIndex (α := ℚ) ⟨1, [[2]]⟩ 1 (fun x => x ^ 2) 0 10 = computeLastIndex (α := ℚ) ⟨1, [[2]]⟩ 1 (fun x => x ^ 2) 1 10 :=
  ⟨C37_zero_min_fails ⟨1, [[1]]⟩ (by simp) (by simp) (by norm_num) 1 _ (fun x _ => sq_nonneg x) 10 (by norm_num) (by simp [LosesAtMost, weight]),
   C37_zero_min ⟨1, [[2]]⟩ (by simp) (by simp) (by norm_num) 1 _ 10 (by norm_num) (by norm_num [LosesAtMost, weight])⟩

/-- Discarding the first `k` values of every row loses at most `bound`, in every row. -/
def FrontLosesAtMost (pw : α → α) (bound : α) (rows : List (List α)) (k : Nat) : Prop :=
  ∀ r ∈ rows, weight pw (r.take k) ≤ bound

theorem weight_take (pw : α → α) (r : List α) (i : Nat) (h : i < r.length) :
    weight pw (r.take (i + 1)) = weight pw (r.take i) + pw |r.getD i 0| := by
  rw [List.take_add_one]
  simp [weight, h]

theorem zipWith_front (pw : α → α) (d : Rows α) (hd : ∀ r ∈ d.rows, r.length = d.n) (l : Nat) (hl : l < d.n) :
    List.zipWith (· + ·) (d.rows.map fun r => weight pw (r.take l))
      ((d.rows.map fun r => r.getD l 0).map fun x => pw |x|) = d.rows.map fun r => weight pw (r.take (l + 1)) := by
  generalize d.n = n at *
  generalize d.rows = rows at *
  induction rows with
  | nil => rfl
  | cons r rows ih =>
    simp only [List.map_cons, List.zipWith_cons_cons]
    rw [ih (fun r hr => hd r (List.mem_cons_of_mem _ hr))]
    rw [weight_take pw r l (by rw [hd r List.mem_cons_self]; omega)]

theorem any_front (pw : α → α) (tol : α) (rows : List (List α)) (k : Nat) :
    ((rows.map fun r => weight pw (r.take k)).any (fun t => decide (tol < t)) = true) ↔
      ¬ FrontLosesAtMost pw tol rows k := by
  simp [FrontLosesAtMost]

theorem firstLoop_stop (pw : α → α) (tol : α) (d : Rows α) (hd : ∀ r ∈ d.rows, r.length = d.n)
    (minIdx maxIdx F : Nat) (hF : F < d.n) (hs : minIdx < F ∨ (¬ FrontLosesAtMost pw tol d.rows (F + 1) ∧ maxIdx ≤ F)) :
    ∀ k first, first + k = F →
      (∀ f, first ≤ f → f < F → f ≤ minIdx ∧ ¬ (¬ FrontLosesAtMost pw tol d.rows (f + 1) ∧ maxIdx ≤ f)) →
      firstLoop d pw tol minIdx maxIdx first (d.rows.map fun r => weight pw (r.take (first + 1))) = .ok F := by
  intro k
  induction k with
  | zero =>
    intro first h _
    obtain rfl : first = F := by omega
    rw [firstLoop]
    by_cases h1 : first ≤ minIdx
    · rw [if_pos h1, if_pos]
      rw [any_front]
      rcases hs with hs | hs
      · omega
      · exact hs
    · rw [if_neg h1]
  | succ k ih =>
    intro first h hb
    rw [firstLoop, if_pos (hb first le_rfl (by omega)).1, if_neg (by
      rw [any_front]; exact (hb first le_rfl (by omega)).2)]
    have hc : d.col ((first : Int) + 1) = .ok (d.rows.map fun r => r.getD (first + 1) 0) := by
      have := Rows.col_nat d (first + 1) (by omega)
      push_cast at this; exact this
    split
    · rename_i e he; rw [hc] at he; cases he
    · rename_i c he
      rw [hc] at he; cases he
      rw [zipWith_front pw d hd _ (by omega)]
      exact ih (first + 1) (by omega) (fun f h1 h2 => hb f (by omega) h2)

theorem firstLoop_throw (pw : α → α) (tol : α) (d : Rows α) (hd : ∀ r ∈ d.rows, r.length = d.n)
    (minIdx maxIdx : Nat) :
    ∀ k first, first + k + 1 = d.n →
      (∀ f, first ≤ f → f < d.n → f ≤ minIdx ∧ ¬ (¬ FrontLosesAtMost pw tol d.rows (f + 1) ∧ maxIdx ≤ f)) →
      firstLoop d pw tol minIdx maxIdx first (d.rows.map fun r => weight pw (r.take (first + 1))) =
        Res.throw .outOfRange := by
  intro k
  induction k with
  | zero =>
    intro first h hb
    rw [firstLoop, if_pos (hb first le_rfl (by omega)).1, if_neg (by
      rw [any_front]; exact (hb first le_rfl (by omega)).2)]
    have hc : d.col ((first : Int) + 1) = Res.throw .outOfRange := by
      unfold Rows.col; rw [if_neg (by omega), if_neg (by omega)]
    split
    · rename_i e he; rw [hc] at he; cases he; rfl
    · rename_i c he; rw [hc] at he; cases he
  | succ k ih =>
    intro first h hb
    rw [firstLoop, if_pos (hb first le_rfl (by omega)).1, if_neg (by
      rw [any_front]; exact (hb first le_rfl (by omega)).2)]
    have hc : d.col ((first : Int) + 1) = .ok (d.rows.map fun r => r.getD (first + 1) 0) := by
      have := Rows.col_nat d (first + 1) (by omega)
      push_cast at this; exact this
    split
    · rename_i e he; rw [hc] at he; cases he
    · rename_i c he
      rw [hc] at he; cases he
      rw [zipWith_front pw d hd _ (by omega)]
      exact ih (first + 1) (by omega) (fun f h1 h2 => hb f (by omega) h2)

theorem firstIndex_start (pw : α → α) (tol : α) (d : Rows α) (hd : ∀ r ∈ d.rows, r.length = d.n) (hn : 1 ≤ d.n)
    (minS maxS : Nat) : computeFirstIndexAscending d tol pw minS maxS =
      firstLoop d pw tol (toU64 ((d.n : Int) - minS)) (toU64 ((d.n : Int) - maxS)) 0
        (d.rows.map fun r => weight pw (r.take (0 + 1))) := by
  unfold computeFirstIndexAscending
  have hc : d.col 0 = .ok (d.rows.map fun r => r.getD 0 0) := Rows.col_nat d 0 (by omega)
  rw [hc]
  simp only [bind, Except.bind]
  congr 1
  rw [List.map_map]
  apply List.map_congr_left
  intro r hr
  have := hd r hr
  rw [weight_take pw r 0 (by omega)]
  simp [weight]

theorem toU64_sub {n k : Nat} (h : k ≤ n) (hn : n < 2 ^ 63) : toU64 ((n : Int) - k) = n - k := by
  have : (n : Int) - k = ((n - k : Nat) : Int) := by omega
  rw [this, toU64_natCast (by omega)]

/-- C38, where it holds. If `min_size ≤ max_size ≤ n`, and dropping down to `min_size - 1` values would lose more
than `tol`, then `compute_first_index_ascending` returns the first kept index `f`, keeps between `min_size` and
`max_size` values, loses at most `tol` unless `max_size` forces more, and could not drop one more value without
losing more than `tol`. Missing: the other cases (`C38_min_fails`, `C38_max_fails`). -/
theorem C38_bounds_partial (d : Rows α) (hd : ∀ r ∈ d.rows, r.length = d.n) (hn2 : d.n < 2 ^ 63)
    (tol : α) (pw : α → α) (minS maxS : Nat) (h1 : 1 ≤ minS) (h2 : minS ≤ maxS) (h3 : maxS ≤ d.n)
    (hw : ¬ FrontLosesAtMost pw tol d.rows (d.n - minS + 1)) :
    ∃ f, computeFirstIndexAscending d tol pw minS maxS = .ok f ∧ f < d.n ∧
      minS ≤ d.n - f ∧ d.n - f ≤ maxS ∧
      (d.n - f < maxS → FrontLosesAtMost pw tol d.rows f) ∧ ¬ FrontLosesAtMost pw tol d.rows (f + 1) := by
  classical
  rw [firstIndex_start pw tol d hd (by omega), toU64_sub (by omega) hn2, toU64_sub h3 hn2]
  have hex : ∃ f, d.n - maxS ≤ f ∧ ¬ FrontLosesAtMost pw tol d.rows (f + 1) := ⟨d.n - minS, by omega, hw⟩
  have hf := Nat.find_spec hex
  have hle : Nat.find hex ≤ d.n - minS := Nat.find_min' hex ⟨by omega, hw⟩
  have hmin : ∀ f < Nat.find hex, ¬ (d.n - maxS ≤ f ∧ ¬ FrontLosesAtMost pw tol d.rows (f + 1)) :=
    fun f hf => Nat.find_min hex hf
  generalize Nat.find hex = F at *
  refine ⟨F, ?_, by omega, by omega, by omega, ?_, hf.2⟩
  · apply firstLoop_stop pw tol d hd _ _ F (by omega) (Or.inr ⟨hf.2, hf.1⟩) F 0 (by omega)
    intro f _ hfF
    exact ⟨by omega, fun hc => hmin f hfF ⟨hc.2, hc.1⟩⟩
  · intro hlt
    have := hmin (F - 1) (by omega)
    have e : F - 1 + 1 = F := by omega
    rw [e] at this
    by_contra hc
    exact this ⟨by omega, hc⟩

example : ∃ f, computeFirstIndexAscending (α := ℚ) ⟨4, [[0, 1, 2, 3]]⟩ 1 (fun x => x) 1 3 = .ok f ∧ f < 4 ∧
      1 ≤ 4 - f ∧ 4 - f ≤ 3 :=
  let ⟨f, h1, h2, h3, h4, _⟩ := C38_bounds_partial (α := ℚ) ⟨4, [[0, 1, 2, 3]]⟩ (by simp) (by norm_num) 1
    (fun x => x) 1 3 le_rfl (by omega) (by simp) (by simp [FrontLosesAtMost, weight]; norm_num)
  ⟨f, h1, h2, h3, h4⟩

/-- C38 fails at the lower bound: whenever losing all but `min_size - 1` values is within the tolerance, that is
what happens (`min_size - 1` values kept), and with `min_size = 1` an index error escapes. -/
theorem C38_min_fails (d : Rows α) (hd : ∀ r ∈ d.rows, r.length = d.n) (hn2 : d.n < 2 ^ 63)
    (tol : α) (pw : α → α) (minS maxS : Nat) (h1 : 1 ≤ minS) (h2 : minS ≤ maxS) (h3 : maxS ≤ d.n)
    (hw : ∀ k ≤ d.n - minS + 1, FrontLosesAtMost pw tol d.rows k) :
    computeFirstIndexAscending d tol pw minS maxS =
      if 2 ≤ minS then .ok (d.n - (minS - 1)) else Res.throw .outOfRange := by
  rw [firstIndex_start pw tol d hd (by omega), toU64_sub (by omega) hn2, toU64_sub h3 hn2]
  split
  · rename_i h
    have e : d.n - (minS - 1) = d.n - minS + 1 := by omega
    rw [e]
    apply firstLoop_stop pw tol d hd _ _ _ (by omega) (Or.inl (by omega)) (d.n - minS + 1) 0 (by omega)
    intro f _ hf
    exact ⟨by omega, fun hc => hc.1 (hw _ (by omega))⟩
  · apply firstLoop_throw pw tol d hd _ _ (d.n - 1) 0 (by omega)
    intro f _ hf
    exact ⟨by omega, fun hc => hc.1 (hw _ (by omega))⟩

example : computeFirstIndexAscending (α := ℚ) ⟨3, [[0, 0, 3]]⟩ 1 (fun x => x) 2 3 = .ok 2 :=
  C38_min_fails ⟨3, [[0, 0, 3]]⟩ (by simp) (by norm_num) 1 (fun x => x) 2 3 (by omega) (by omega) (by simp)
    (by
      intro k hk
      simp only [FrontLosesAtMost, List.mem_singleton, forall_eq]
      have : k = 0 ∨ k = 1 ∨ k = 2 := by simp only at hk; omega
      rcases this with rfl | rfl | rfl <;> simp [weight])

/-- C38 fails for a `max_size` above the number of values (the default): the unsigned difference wraps, the
tolerance is never looked at, and `min_size - 1` values are kept whatever they weigh. -/
theorem C38_max_fails (d : Rows α) (hd : ∀ r ∈ d.rows, r.length = d.n) (hn2 : d.n < 2 ^ 63)
    (tol : α) (pw : α → α) (minS maxS : Nat) (h1 : 1 ≤ minS) (h2 : minS ≤ d.n) (h3 : d.n < maxS)
    (h4 : maxS < 2 ^ 64) :
    computeFirstIndexAscending d tol pw minS maxS =
      if 2 ≤ minS then .ok (d.n - (minS - 1)) else Res.throw .outOfRange := by
  have hm : toU64 ((d.n : Int) - maxS) = 2 ^ 64 + d.n - maxS := by
    unfold toU64
    have : ((d.n : Int) - maxS) % 2 ^ 64 = (d.n : Int) - maxS + 2 ^ 64 := by
      rw [← Int.add_emod_right, Int.emod_eq_of_lt (by omega) (by omega)]
    rw [this]; omega
  rw [firstIndex_start pw tol d hd (by omega), toU64_sub (by omega) hn2, hm]
  split
  · rename_i h
    have e : d.n - (minS - 1) = d.n - minS + 1 := by omega
    rw [e]
    apply firstLoop_stop pw tol d hd _ _ _ (by omega) (Or.inl (by omega)) (d.n - minS + 1) 0 (by omega)
    intro f _ hf
    exact ⟨by omega, fun hc => by omega⟩
  · apply firstLoop_throw pw tol d hd _ _ (d.n - 1) 0 (by omega)
    intro f _ hf
    exact ⟨by omega, fun hc => by omega⟩

example : computeFirstIndexAscending (α := ℚ) ⟨3, [[5, 6, 7]]⟩ 1 (fun x => x) 2 (2 ^ 64 - 1) = .ok 2 :=
  C38_max_fails ⟨3, [[5, 6, 7]]⟩ (by simp) (by norm_num) 1 (fun x => x) 2 _ (by omega) (by simp)
    (by norm_num) (by norm_num)

omit [IsStrictOrderedRing α] in
/-- C39, what is true: the pair comes back in the order it was given, both members cut to the same number of
columns. Missing: that number is computed from the second member, the eigenvectors (`C39_vectors_fails`), and the
version with two arguments swaps them (`C39_order_fails`). -/
theorem C39_order_partial (e u : Rows α) (tol : α) (pw : α → α) (minS maxS : Nat) (e' u' : Rows α)
    (h : eighTruncated (e, u) tol minS maxS pw = .ok (e', u')) :
    ∃ last, computeLastIndex u tol pw minS maxS = .ok last ∧
      e' = e.sliceTo (last + 1) ∧ u' = u.sliceTo (last + 1) := by
  unfold eighTruncated truncatePair truncate2 at h
  simp only at h
  cases hc : computeLastIndex u tol pw minS maxS with
  | error x => rw [hc] at h; cases h
  | ok last =>
    rw [hc] at h
    simp only [bind, Except.bind, pure, Except.pure, Except.ok.injEq, Prod.mk.injEq] at h
    exact ⟨last, rfl, h.1.symm, h.2.symm⟩

/-- C39 fails: for the matrix `diag(0, 5)` with tolerance 1, `eigh` keeps the eigenvalue 0 and drops the
eigenvalue 5. -/
theorem C39_vectors_fails :
    eighTruncated (α := ℚ) (⟨2, [[0, 5]]⟩, ⟨2, [[1, 0], [0, 1]]⟩) 1 1 10 (fun x => x) =
      .ok (⟨1, [[0]]⟩, ⟨1, [[1], [0]]⟩) := by
  have h : computeLastIndex (α := ℚ) ⟨2, [[1, 0], [0, 1]]⟩ 1 (fun x => x) 1 10 = .ok 0 := by
    obtain ⟨k, h1, h, h2, h3, h4, h5, h6⟩ := C37_truncation (α := ℚ) ⟨2, [[1, 0], [0, 1]]⟩ (by simp) (by simp)
      (by norm_num) 1 (fun x => x) (fun x h => h) (by norm_num) 1 10 le_rfl
    have hk : k = 1 := by
      have a : ¬ 1 < k := fun hc => h6 1 hc (by omega) (by simp [LosesAtMost, weight])
      omega
    rw [h, hk]; rfl
  unfold eighTruncated truncatePair truncate2
  simp only [h, bind, Except.bind, pure, Except.pure]
  rfl

omit [IsStrictOrderedRing α] in
/-- C39 fails: `truncate(a, b, …)` returns its arguments swapped. -/
theorem C39_order_fails (a b : Rows α) (tol : α) (pw : α → α) (minS maxS : Nat) (last : Int)
    (h : computeLastIndex a tol pw minS maxS = .ok last) :
    truncate2 a b tol minS maxS pw = .ok (b.sliceTo (last + 1), a.sliceTo (last + 1)) := by
  unfold truncate2
  simp only [h, bind, Except.bind, pure, Except.pure]

end QuantiT
