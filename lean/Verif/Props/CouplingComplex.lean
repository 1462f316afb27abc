import Verif.Props.CouplingTypes
import Mathlib.Tactic.IntervalCases
/-
C123: complex couplings of the Heisenberg chain that are stored, and those that are not.
-/
namespace QuantiT
namespace HM
open Spec Finset

theorem trunc_byte (x : ℝ) : (-128 ≤ TY.trunc x ∧ TY.trunc x ≤ 127) ↔ -129 < x ∧ x < 128 := by
  unfold TY.trunc
  split_ifs with h
  · have e1 : ((⌊x⌋ : ℝ) ≤ 127) ↔ x < 128 := by
      rw [show (127 : ℝ) = ((127 : ℤ) : ℝ) by norm_num, Int.cast_le, ← Int.lt_add_one_iff, Int.floor_lt]
      norm_num
    have e2 : (0 : ℝ) ≤ (⌊x⌋ : ℝ) := by exact_mod_cast Int.floor_nonneg.2 h
    rw [e1]
    constructor
    · exact fun g => ⟨by linarith, g.2⟩
    · exact fun g => ⟨by linarith, g.2⟩
  · have e1 : (-128 ≤ (⌈x⌉ : ℝ)) ↔ -129 < x := by
      rw [show (-128 : ℝ) = ((-128 : ℤ) : ℝ) by norm_num, Int.cast_le, ← Int.sub_one_lt_iff, Int.lt_ceil]
      norm_num
    have e2 : (⌈x⌉ : ℝ) ≤ 0 := by exact_mod_cast Int.ceil_le.2 (by push_cast; linarith)
    rw [e1]
    constructor
    · exact fun g => ⟨g.1, by linarith⟩
    · exact fun g => ⟨g.1, by linarith⟩

theorem storeByte_ok (c : ℂ) (x : Blk Int) (h : ∀ o, -129 < c.re * (x.f o : ℝ) ∧ c.re * (x.f o : ℝ) < 128) :
    storeByte (mulNum (.complex c) x) = .ok ⟨x.dims, fun o => ((TY.trunc (c.re * (x.f o : ℝ)) : ℝ) : ℂ)⟩ := by
  have hr : ∀ o, (c * (x.f o : ℂ)).re = c.re * (x.f o : ℝ) := by
    intro o
    rw [Complex.mul_re, Complex.intCast_re, Complex.intCast_im, mul_zero, sub_zero]
  unfold mulNum storeByte
  simp only [TY.cast, hr]
  rw [if_pos (fun o _ => by rw [hr o]; exact (trunc_byte _).2 (h o))]

theorem storeByte_ub (c : ℂ) (x : Blk Int) (o : List Nat) (ho : InRange o x.dims) (h1 : x.f o = 1) (h : ¬ (-129 < c.re ∧ c.re < 128)) :
    storeByte (mulNum (.complex c) x) = Res.ub := by
  unfold mulNum storeByte
  dsimp only
  rw [if_neg]
  intro g
  have := (trunc_byte _).1 (g o ho)
  rw [Complex.mul_re, Complex.intCast_re, Complex.intCast_im, mul_zero, sub_zero, h1] at this
  exact h (by simpa using this)

theorem pauli_cases : (∀ o, (pauliLo : Blk Int).f o = 0 ∨ (pauliLo : Blk Int).f o = 1) ∧
    (∀ o, (tr pauliLo : Blk Int).f o = 0 ∨ (tr pauliLo : Blk Int).f o = 1) := by
  refine ⟨fun o => ?_, fun o => ?_⟩
  · simp only [pauliLo, put, zeros]; split_ifs <;> simp
  · simp only [tr, pauliLo, put, zeros]; split_ifs <;> simp

theorem half_re (z : ℂ) : (-z / 4).re = -z.re / 4 ∧ (2 * (-z / 4)).re = -z.re / 2 := by
  have hz : (-z / 4).re = -z.re / 4 := by simp
  refine ⟨hz, ?_⟩
  rw [Complex.mul_re, hz]; simp; ring

/-- The three tensors of the coupling, when they are stored. -/
theorem stores_ok (z : ℂ) (h : -256 < z.re) (h' : z.re < 258) :
    (∀ x : Blk Int, (∀ o, x.f o = 0 ∨ x.f o = 1) → storeByte (mulNum (.complex (2 * (-z / 4))) x) =
      .ok ⟨x.dims, fun o => ((TY.trunc (-z.re / 2 * (x.f o : ℝ)) : ℝ) : ℂ)⟩) ∧
    storeByte (mulNum (.complex (-z / 4)) pauliSz) =
      .ok ⟨(pauliSz : Blk Int).dims, fun o => ((TY.trunc (-z.re / 4 * ((pauliSz : Blk Int).f o : ℝ)) : ℝ) : ℂ)⟩ := by
  obtain ⟨r1, r2⟩ := half_re z
  constructor
  · intro x hx
    rw [← r2]
    refine storeByte_ok _ _ fun o => ?_
    rw [r2]
    rcases hx o with e | e <;> rw [e] <;> constructor <;> push_cast <;> linarith
  · rw [← r1]
    refine storeByte_ok _ _ fun o => ?_
    rw [r1]
    have := abs_le.1 (pauli_small.2.2 o)
    have : (pauliSz : Blk Int).f o = -1 ∨ (pauliSz : Blk Int).f o = 0 ∨ (pauliSz : Blk Int).f o = 1 := by omega
    rcases this with e | e | e <;> rw [e] <;> constructor <;> push_cast <;> linarith

/-- **C123 fails** for large complex couplings: `Heisenberg(J, L)` with a complex coupling has undefined behaviour exactly when the real
part of the coupling is at most -256 or at least 258, for every length. -/
theorem C123_complex_large_fails (z : ℂ) (L : Nat) (hL : 1 ≤ L) :
    heisenbergT (.complex z) L = Res.ub ↔ z.re ≤ -256 ∨ 258 ≤ z.re := by
  constructor
  · intro g
    by_contra hc
    push Not at hc
    obtain ⟨s1, s2⟩ := stores_ok z hc.1 hc.2
    unfold heisenbergT heisenbergTensorT at g
    simp only [Num.neg, Num.quarter, storeFor, Num.twice, s1 _ pauli_cases.1, s1 _ pauli_cases.2, s2, bind, Except.bind] at g
    unfold edges at g
    rw [if_neg (by omega)] at g
    cases g
  · intro hc
    have u : storeByte (mulNum (.complex (2 * (-z / 4))) (tr pauliLo)) = Res.ub := by
      refine storeByte_ub _ _ [1, 0] ?_ ?_ ?_
      · simp [InRange, tr, pauliLo, put, zeros]
      · simp [tr, pauliLo, put, zeros]
      · rw [(half_re z).2]
        rcases hc with h | h
        · exact fun g => by linarith [g.2]
        · exact fun g => by linarith [g.1]
    unfold heisenbergT heisenbergTensorT
    simp only [Num.neg, Num.quarter, storeFor, Num.twice, u, bind, Except.bind]
    rfl

theorem trunc_int (n : ℤ) : TY.trunc (n : ℝ) = n := by
  unfold TY.trunc
  split_ifs <;> simp

theorem complex_multiple (k : ℤ) (h : -63 ≤ k) (h' : k ≤ 64) (L : Nat) (hL : 2 ≤ L) :
    heisenbergT (.complex (4 * k)) L = heisenberg (4 * k : ℂ) L := by
  have hre : (4 * k : ℂ).re = 4 * k := by simp
  have hk1 : (-63 : ℝ) ≤ k := by exact_mod_cast h
  have hk2 : (k : ℝ) ≤ 64 := by exact_mod_cast h'
  obtain ⟨s1, s2⟩ := stores_ok (4 * k) (by rw [hre]; linarith) (by rw [hre]; linarith)
  rw [hre] at s1 s2
  have m1 : ∀ x : Blk Int, (⟨x.dims, fun o => ((TY.trunc (-(4 * k : ℝ) / 2 * (x.f o : ℝ)) : ℝ) : ℂ)⟩ : Blk ℂ) =
      mulS (2 * (-(4 * k : ℂ) / 4)) (Tens.i8 x).values := by
    intro x
    unfold mulS Tens.values
    congr 1
    funext o
    rw [show -(4 * k : ℝ) / 2 * (x.f o : ℝ) = ((-2 * k * x.f o : ℤ) : ℝ) by push_cast; ring, trunc_int]
    push_cast
    ring
  have m2 : ∀ x : Blk Int, (⟨x.dims, fun o => ((TY.trunc (-(4 * k : ℝ) / 4 * (x.f o : ℝ)) : ℝ) : ℂ)⟩ : Blk ℂ) =
      mulS (-(4 * k : ℂ) / 4) (Tens.i8 x).values := by
    intro x
    unfold mulS Tens.values
    congr 1
    funext o
    rw [show -(4 * k : ℝ) / 4 * (x.f o : ℝ) = ((-k * x.f o : ℤ) : ℝ) by push_cast; ring, trunc_int]
    push_cast
    ring
  have e : heisenbergTensorT (.complex (-(4 * k) / 4)) = .ok (heisenbergTensor (-(4 * k) / 4)) := by
    unfold heisenbergTensorT heisenbergTensor
    simp only [storeFor, Num.twice, s1 _ pauli_cases.1, s1 _ pauli_cases.2, s2, m1, m2, values_lo, values_tr, values_sz, values_one, bind,
      Except.bind]
  unfold heisenbergT heisenberg heisenbergImpl
  simp only [Num.neg, Num.quarter, e, bind, Except.bind]

/-- **C123, complex couplings (partial).**  `Heisenberg(J, L)` with a complex coupling is the Hamiltonian with that coupling if the
coupling is four times an integer between -63 and 64. -/
theorem C123_complex_partial (k : ℤ) (h : -63 ≤ k) (h' : k ≤ 64) (L : Nat) (hL : 2 ≤ L) :
    ∃ Ws, heisenbergT (.complex (4 * k)) L = .ok Ws ∧ Ws.length = L ∧
      mpoMatrix L 2 Ws = ∑ i ∈ range (L - 1),
        (-(4 * k : ℂ) / 4) • ((2 : ℂ) • onPair i sPlus sMinus + (2 : ℂ) • onPair i sMinus sPlus + onPair i sigmaZ sigmaZ) := by
  obtain ⟨Ws, g1, g2, _, g3⟩ := C55_heisenberg (4 * k : ℂ) L hL
  refine ⟨Ws, ?_, g2, g3⟩
  rw [← g1]
  exact complex_multiple k h h' L hL

/-- The premises are met: the coupling `256 + 0i` is right and stored as -128, `260 + 0i` and `-256 + i` are undefined. -/
example : (∃ Ws, heisenbergT (.complex (4 * (64 : ℤ))) 3 = .ok Ws) ∧ heisenbergT (.complex 260) 3 = Res.ub ∧
    heisenbergT (.complex (-256 + Complex.I)) 3 = Res.ub := by
  refine ⟨?_, (C123_complex_large_fails _ 3 (by omega)).2 (by norm_num), (C123_complex_large_fails _ 3 (by omega)).2 (by norm_num)⟩
  obtain ⟨Ws, h, _⟩ := C123_complex_partial 64 (by omega) (by omega) 3 (by omega)
  exact ⟨Ws, h⟩

end HM
end QuantiT
