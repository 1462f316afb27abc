import Verif.Model.CouplingTypes
import Verif.Props.Models
import Mathlib.Tactic.Push
/-
C123: the element type of the couplings of the model Hamiltonians.
-/
namespace QuantiT
namespace HM
open Spec Finset

theorem values_put (i j : Nat) (v : Int) (T : Blk Int) : (Tens.i8 (put i j v T)).values = put i j (v : ℂ) (Tens.i8 T).values := by
  have : ∀ (d : List Nat) (f g : List Nat → ℂ), f = g → (⟨d, f⟩ : Blk ℂ) = ⟨d, g⟩ := by rintro d f g rfl; rfl
  refine this _ _ _ ?_
  funext o
  show (((if o = [i, j] then v else T.f o : Int)) : ℂ) = if o = [i, j] then (v : ℂ) else (T.f o : ℂ)
  split_ifs <;> rfl

theorem values_zeros (ds : List Nat) : (Tens.i8 (zeros ds)).values = zeros ds := by
  unfold zeros Tens.values
  simp

theorem values_tr (T : Blk Int) : (Tens.i8 (tr T)).values = tr (Tens.i8 T).values := rfl

theorem values_lo : (Tens.i8 pauliLo).values = pauliLo := by simp [pauliLo, values_put, values_zeros]
theorem values_sz : (Tens.i8 pauliSz).values = pauliSz := by simp [pauliSz, values_put, values_zeros]
theorem values_one : (Tens.i8 pauliId).values = pauliId := by simp [pauliId, values_put, values_zeros]
theorem values_up : (Tens.i8 fermiUp).values = fermiUp := by simp [fermiUp, values_put, values_zeros]
theorem values_dn : (Tens.i8 fermiDn).values = fermiDn := by simp [fermiDn, values_put, values_zeros]

theorem values_matmul (n : Nat) (x y : Blk Int) :
    (Tens.i8 (matmul n x y)).values = matmul n (Tens.i8 x).values (Tens.i8 y).values := by
  unfold matmul Tens.values
  simp

theorem values_addB (x y : Blk Int) : (Tens.i8 (addB x y)).values = addB (Tens.i8 x).values (Tens.i8 y).values := by
  unfold addB Tens.values
  simp

theorem storeReal_real (r : ℝ) (x : Blk Int) : storeReal (mulNum (.real r) x) = mulS (r : ℂ) (Tens.i8 x).values := by
  unfold storeReal mulNum mulS Tens.values TY.cast
  congr 1
  funext o
  simp

theorem heisenbergTensorT_real (r : ℝ) : heisenbergTensorT (.real r) = .ok (heisenbergTensor (r : ℂ)) := by
  unfold heisenbergTensorT heisenbergTensor
  simp only [storeFor, Num.twice, storeReal_real, values_lo, values_tr, values_sz, values_one, bind, Except.bind, Complex.ofReal_mul,
    Complex.ofReal_ofNat]

/-- Number operators of the two spins at an entry: none, one, or both with the pair. -/
theorem counts (o : List Nat) :
    let nUp : Blk Int := matmul 4 (tr fermiUp) fermiUp
    let nDn : Blk Int := matmul 4 (tr fermiDn) fermiDn
    ((matmul 4 nUp nDn).f o = 0 ∧ (addB nUp nDn).f o = 0) ∨ ((matmul 4 nUp nDn).f o = 0 ∧ (addB nUp nDn).f o = 1) ∨
      ((matmul 4 nUp nDn).f o = 1 ∧ (addB nUp nDn).f o = 2) := by
  dsimp only
  simp only [matmul, addB]
  generalize o.getD 0 0 = a
  generalize o.getD 1 0 = b
  by_cases ha : a < 4
  · by_cases hb : b < 4
    · interval_cases a <;> interval_cases b <;> decide
    · refine .inl ?_
      have h1 : ∀ k, (fermiUp : Blk Int).f [k, b] = 0 := by
        intro k; simp [fermiUp, put, zeros]; omega
      have h2 : ∀ k, (fermiDn : Blk Int).f [k, b] = 0 := by
        intro k; simp [fermiDn, put, zeros]; split_ifs <;> omega
      simp [h1, h2]
  · refine .inl ?_
    have h1 : ∀ k, (tr fermiUp : Blk Int).f [a, k] = 0 := by
      intro k; simp [tr, fermiUp, put, zeros]; omega
    have h2 : ∀ k, (tr fermiDn : Blk Int).f [a, k] = 0 := by
      intro k; simp [tr, fermiDn, put, zeros]; split_ifs <;> omega
    simp [h1, h2]

/-- The Hubbard chain of any couplings is that of the couplings that the 8-bit arithmetic leaves. -/
theorem hubbardT_eq (U mu : Num) (u m : ℂ) (len : Nat)
    (h : ∀ o, (storeReal (hubbardLocalT U mu)).f o =
      u * ((matmul 4 (matmul 4 (tr fermiUp) fermiUp) (matmul 4 (tr fermiDn) fermiDn) : Blk Int).f o : ℂ)
        - m * ((addB (matmul 4 (tr fermiUp) fermiUp) (matmul 4 (tr fermiDn) fermiDn) : Blk Int).f o : ℂ)) :
    hubbardT U mu len = hubbard u m len := by
  have hd : (storeReal (hubbardLocalT U mu)).dims = [4, 4] := by cases U <;> cases mu <;> rfl
  have e : storeReal (hubbardLocalT U mu) =
      subB (mulS u (matmul 4 (matmul 4 (tr fermiUp) fermiUp) (matmul 4 (tr fermiDn) fermiDn)))
        (mulS m (addB (matmul 4 (tr fermiUp) fermiUp) (matmul 4 (tr fermiDn) fermiDn))) := by
    have h1 : (Tens.i8 (matmul 4 (matmul 4 (tr fermiUp) fermiUp) (matmul 4 (tr fermiDn) fermiDn))).values =
        matmul 4 (matmul 4 (tr fermiUp) fermiUp) (matmul 4 (tr fermiDn) fermiDn) := by
      simp only [values_matmul, values_tr, values_up, values_dn]
    have h2 : (Tens.i8 (addB (matmul 4 (tr fermiUp) fermiUp) (matmul 4 (tr fermiDn) fermiDn))).values =
        addB (matmul 4 (tr fermiUp) fermiUp) (matmul 4 (tr fermiDn) fermiDn) := by
      simp only [values_addB, values_matmul, values_tr, values_up, values_dn]
    have h1 := congrArg Blk.f h1
    have h2 := congrArg Blk.f h2
    have : ∀ x y : Blk ℂ, x.dims = y.dims → x.f = y.f → x = y := by
      rintro ⟨_, _⟩ ⟨_, _⟩ h h'
      cases h; cases h'; rfl
    refine this _ _ (by rw [hd]; rfl) ?_
    funext o
    rw [h o]
    have h1 := congrFun h1 o
    have h2 := congrFun h2 o
    simp only [Tens.values] at h1 h2
    simp only [subB, mulS]
    rw [← h1, ← h2]
  unfold hubbardT hubbard hubbardTensor
  dsimp only
  rw [e]

theorem hubbardT_int (bu bm : Nat) (U mu : Int) (len : Nat) :
    hubbardT (.int bu U) (.int bm mu) len =
      hubbard (((wrapInt 8 (U - 2 * mu) - 2 * wrapInt 8 (-mu) : Int)) : ℂ) ((-wrapInt 8 (-mu) : Int) : ℂ) len := by
  refine hubbardT_eq _ _ _ _ _ fun o => ?_
  have e : (storeReal (hubbardLocalT (.int bu U) (.int bm mu))).f o = ((wrapInt 8 (wrapInt 8 (wrapInt 8 U *
      (matmul 4 (matmul 4 (tr fermiUp) fermiUp) (matmul 4 (tr fermiDn) fermiDn) : Blk Int).f o) - wrapInt 8 (wrapInt 8 mu *
      (addB (matmul 4 (tr fermiUp) fermiUp) (matmul 4 (tr fermiDn) fermiDn) : Blk Int).f o)) : Int) : ℂ) := by
    simp [storeReal, hubbardLocalT, mulNum, subT, Tens.values, TY.cast]
  rw [e, ← Int.cast_mul, ← Int.cast_mul, ← Int.cast_sub, Int.cast_inj]
  rcases counts o with ⟨h1, h2⟩ | ⟨h1, h2⟩ | ⟨h1, h2⟩ <;> rw [h1, h2] <;> unfold wrapInt
  · simp
  · simp
  · simp [mul_comm]

theorem hubbardT_intU (bu : Nat) (U : Int) (mu : Num) (hm : ∀ b n, mu ≠ .int b n) (len : Nat) :
    hubbardT (.int bu U) mu len = hubbard ((wrapInt 8 U : Int) : ℂ) ((mu.value.re : ℝ) : ℂ) len := by
  refine hubbardT_eq _ _ _ _ _ fun o => ?_
  rcases mu with ⟨b, n⟩ | x | z
  · exact absurd rfl (hm b n)
  all_goals
    rcases counts o with ⟨h1, h2⟩ | ⟨h1, h2⟩ | ⟨h1, h2⟩ <;>
      simp [storeReal, hubbardLocalT, mulNum, subT, Tens.values, TY.cast, Num.value, h1, h2] <;> simp [wrapInt]

theorem hubbardT_intMu (bm : Nat) (U : Num) (mu : Int) (hU : ∀ b n, U ≠ .int b n) (len : Nat) :
    hubbardT U (.int bm mu) len =
      hubbard (((U.value.re - wrapInt 8 (2 * mu) + 2 * wrapInt 8 mu : ℝ)) : ℂ) ((wrapInt 8 mu : Int) : ℂ) len := by
  refine hubbardT_eq _ _ _ _ _ fun o => ?_
  rcases U with ⟨b, n⟩ | x | z
  · exact absurd rfl (hU b n)
  all_goals
    rcases counts o with ⟨h1, h2⟩ | ⟨h1, h2⟩ | ⟨h1, h2⟩ <;>
      simp [storeReal, hubbardLocalT, mulNum, subT, Tens.values, TY.cast, Num.value, h1, h2, wrapInt, mul_comm]
    try ring

theorem hubbardT_num (U mu : Num) (hU : ∀ b n, U ≠ .int b n) (hm : ∀ b n, mu ≠ .int b n) (len : Nat) :
    hubbardT U mu len = hubbard ((U.value.re : ℝ) : ℂ) ((mu.value.re : ℝ) : ℂ) len := by
  refine hubbardT_eq _ _ _ _ _ fun o => ?_
  rcases U with ⟨b, n⟩ | x | z
  · exact absurd rfl (hU b n)
  all_goals
    rcases mu with ⟨b, n⟩ | y | w
    · exact absurd rfl (hm b n)
    all_goals
      rcases counts o with ⟨h1, h2⟩ | ⟨h1, h2⟩ | ⟨h1, h2⟩ <;>
        simp [storeReal, hubbardLocalT, mulNum, subT, Tens.values, TY.cast, Num.value, h1, h2]

theorem wrap8_iff (n : Int) : wrapInt 8 n = n ↔ -128 ≤ n ∧ n ≤ 127 := by
  unfold wrapInt
  rw [Int.bmod_def]
  split <;> omega

/-- The chain determines the couplings. -/
theorem hubbard_inj {u m u' m' : ℂ} {L : Nat} (hL : 2 ≤ L) (h : hubbard u m L = hubbard u' m' L) : u = u' ∧ m = m' := by
  have key : ∀ u m : ℂ, ∃ W Ws, hubbard u m L = .ok (W :: Ws) ∧ W.f [0, 1, 0, 1] = -m ∧ W.f [0, 3, 0, 3] = u - 2 * m := by
    intro u m
    obtain ⟨n, rfl⟩ : ∃ n, L = n + 2 := ⟨L - 2, by omega⟩
    refine ⟨narrow 0 5 6 (hubbardTensor u m), (List.replicate (n + 1) (hubbardTensor u m)).modify n (narrow 2 0 1), rfl, ?_, ?_⟩
    · have e1 : (matmul 4 (matmul 4 (tr fermiUp) fermiUp) (matmul 4 (tr fermiDn) fermiDn) : Blk ℂ).f [1, 1] = 0 := by
        simp [matmul, tr, fermiUp, fermiDn, put, zeros, sum_range_succ]
      have e2 : (addB (matmul 4 (tr fermiUp) fermiUp) (matmul 4 (tr fermiDn) fermiDn) : Blk ℂ).f [1, 1] = 1 := by
        simp [matmul, addB, tr, fermiUp, fermiDn, put, zeros, sum_range_succ]
      simp [narrow, hubbardTensor, putOp, subB, mulS, e1, e2]
    · have e1 : (matmul 4 (matmul 4 (tr fermiUp) fermiUp) (matmul 4 (tr fermiDn) fermiDn) : Blk ℂ).f [3, 3] = 1 := by
        simp [matmul, tr, fermiUp, fermiDn, put, zeros, sum_range_succ]
      have e2 : (addB (matmul 4 (tr fermiUp) fermiUp) (matmul 4 (tr fermiDn) fermiDn) : Blk ℂ).f [3, 3] = 2 := by
        simp [matmul, addB, tr, fermiUp, fermiDn, put, zeros, sum_range_succ]
        norm_num
      simp [narrow, hubbardTensor, putOp, subB, mulS, e1, e2, mul_comm]
  obtain ⟨W, Ws, h1, h2, h3⟩ := key u m
  obtain ⟨W', Ws', h1', h2', h3'⟩ := key u' m'
  rw [h1, h1'] at h
  cases h
  have hm : m = m' := neg_injective (h2.symm.trans h2')
  subst hm
  exact ⟨sub_left_injective (h3.symm.trans h3'), rfl⟩

/-- What the 8-bit arithmetic of the operators can hold: integers that leave on-site energies between -128 and 127, real numbers. -/
def Exact8 : Num → Num → Prop
  | .int _ U, .int _ mu => (-128 ≤ -mu ∧ -mu ≤ 127) ∧ (-128 ≤ U - 2 * mu ∧ U - 2 * mu ≤ 127)
  | .int _ U, mu => (-128 ≤ U ∧ U ≤ 127) ∧ mu.value.im = 0
  | U, .int _ mu => U.value.im = 0 ∧ -64 ≤ mu ∧ mu ≤ 63
  | U, mu => U.value.im = 0 ∧ mu.value.im = 0

/-- **C123.**  `Heisenberg(J, L)` of a real coupling, or of an integer one of any width whose opposite exists, is the Hamiltonian of that
number. -/
theorem C123_heisenberg_partial (J : Num) (hJ : ∀ z, J ≠ .complex z)
    (hi : ∀ bits n, J = .int bits n → 1 ≤ bits ∧ -2 ^ (bits - 1) < n ∧ n < 2 ^ (bits - 1)) (L : Nat) (hL : 2 ≤ L) :
    ∃ Ws, heisenbergT J L = .ok Ws ∧ Ws.length = L ∧
      mpoMatrix L 2 Ws = ∑ i ∈ range (L - 1),
        (-J.value / 4) • ((2 : ℂ) • onPair i sPlus sMinus + (2 : ℂ) • onPair i sMinus sPlus + onPair i sigmaZ sigmaZ) := by
  obtain ⟨Ws, h1, h2, _, h3⟩ := C55_heisenberg J.value L hL
  refine ⟨Ws, ?_, h2, h3⟩
  rw [← h1]
  unfold heisenbergT heisenberg heisenbergImpl
  rcases J with ⟨b, n⟩ | x | z
  · obtain ⟨k1, k2, k3⟩ := hi b n rfl
    have hw : wrapInt b (-n) = -n := by
      unfold wrapInt
      obtain ⟨c, rfl⟩ : ∃ c, b = c + 1 := ⟨b - 1, by omega⟩
      rw [Nat.add_sub_cancel] at k2 k3
      have hp : (2 : Int) ^ (c + 1) = 2 * 2 ^ c := by rw [pow_succ, mul_comm]
      refine Int.bmod_eq_of_le ?_ ?_ <;> push_cast <;> rw [hp] <;> omega
    simp only [Num.neg, Num.quarter, Num.value, hw, heisenbergTensorT_real, bind, Except.bind]
    norm_num
  · simp only [Num.neg, Num.quarter, Num.value, heisenbergTensorT_real, bind, Except.bind]
    norm_num
  · exact absurd rfl (hJ z)

/-- **C123.**  `Hubbard(U, mu, L)` is the Hamiltonian of its arguments exactly when they are real and what is an integer fits into 8
bits. -/
theorem C123_hubbard_partial (U mu : Num) (L : Nat) (hL : 2 ≤ L) :
    (hubbardT U mu L = hubbard U.value mu.value L ↔ Exact8 U mu) ∧
    (Exact8 U mu → ∃ Ws, hubbardT U mu L = .ok Ws ∧ Ws.length = L ∧
      mpoMatrix L 4 Ws =
        ∑ i ∈ range L, (onSite i (U.value • (cUp.transpose * cUp * (cDn.transpose * cDn))
            - mu.value • (cUp.transpose * cUp + cDn.transpose * cDn))) +
        ∑ i ∈ range (L - 1), (
          ((annihilate L i .up).transpose * annihilate L (i + 1) .up
            + (annihilate L (i + 1) .up).transpose * annihilate L i .up) +
          ((annihilate L i .dn).transpose * annihilate L (i + 1) .dn
            + (annihilate L (i + 1) .dn).transpose * annihilate L i .dn))) := by
  have him : ∀ z : ℂ, ((z.re : ℝ) : ℂ) = z ↔ z.im = 0 := fun z => by
    rw [Complex.ext_iff]; simp [eq_comm]
  have step : ∀ u m : ℂ, hubbardT U mu L = hubbard u m L → ((u = U.value ∧ m = mu.value) ↔ Exact8 U mu) →
      (hubbardT U mu L = hubbard U.value mu.value L ↔ Exact8 U mu) := by
    intro u m h he
    rw [← he, h]
    refine ⟨fun h' => hubbard_inj hL h', ?_⟩
    rintro ⟨rfl, rfl⟩
    rfl
  have main : hubbardT U mu L = hubbard U.value mu.value L ↔ Exact8 U mu := by
    rcases U with ⟨bu, U⟩ | x | z <;> rcases mu with ⟨bm, mu⟩ | y | w
    · refine step _ _ (hubbardT_int bu bm U mu L) ?_
      show _ ↔ (-128 ≤ -mu ∧ -mu ≤ 127) ∧ (-128 ≤ U - 2 * mu ∧ U - 2 * mu ≤ 127)
      simp only [Num.value]
      rw [Int.cast_inj, Int.cast_inj, ← wrap8_iff, ← wrap8_iff]
      constructor <;> intro h <;> constructor <;> omega
    · refine step _ _ (hubbardT_intU bu U _ (by simp) L) ?_
      show _ ↔ (-128 ≤ U ∧ U ≤ 127) ∧ (Num.real y).value.im = 0
      rw [him, ← wrap8_iff]
      simp only [Num.value, Int.cast_inj]
    · refine step _ _ (hubbardT_intU bu U _ (by simp) L) ?_
      show _ ↔ (-128 ≤ U ∧ U ≤ 127) ∧ (Num.complex w).value.im = 0
      rw [him, ← wrap8_iff]
      simp only [Num.value, Int.cast_inj]
    · refine step _ _ (hubbardT_intMu bm _ mu (by simp) L) ?_
      unfold Exact8
      simp only [Num.value, Int.cast_inj, wrap8_iff, Complex.ofReal_re, Complex.ofReal_im, true_and, Complex.ofReal_inj]
      constructor
      · rintro ⟨h1, h2⟩
        have h3 := (wrap8_iff mu).2 h2
        rw [h3] at h1
        have h4 : (wrapInt 8 (2 * mu) : ℝ) = ((2 * mu : Int) : ℝ) := by push_cast; linarith
        have := (wrap8_iff _).1 (Int.cast_injective h4)
        omega
      · intro h
        have h3 := (wrap8_iff mu).2 (by omega)
        have h4 := (wrap8_iff (2 * mu)).2 (by omega)
        rw [h3, h4]
        refine ⟨by push_cast; ring, by omega⟩
    · refine step _ _ (hubbardT_num _ _ (by simp) (by simp) L) ?_
      unfold Exact8
      rw [him, him]
    · refine step _ _ (hubbardT_num _ _ (by simp) (by simp) L) ?_
      unfold Exact8
      rw [him, him]
    · refine step _ _ (hubbardT_intMu bm _ mu (by simp) L) ?_
      unfold Exact8
      simp only [Num.value, Int.cast_inj, wrap8_iff]
      constructor
      · rintro ⟨h1, h2⟩
        have h0 : z.im = 0 := by rw [← h1]; exact Complex.ofReal_im _
        have h3 := (wrap8_iff mu).2 h2
        rw [h3] at h1
        have h1 := congrArg Complex.re h1
        rw [Complex.ofReal_re] at h1
        have h4 : (wrapInt 8 (2 * mu) : ℝ) = ((2 * mu : Int) : ℝ) := by push_cast; linarith
        have := (wrap8_iff _).1 (Int.cast_injective h4)
        exact ⟨h0, by omega, by omega⟩
      · rintro ⟨h0, h⟩
        have h3 := (wrap8_iff mu).2 (by omega)
        have h4 := (wrap8_iff (2 * mu)).2 (by omega)
        rw [h3, h4]
        refine ⟨?_, by omega⟩
        rw [← (him z).2 h0]
        push_cast
        simp
    · refine step _ _ (hubbardT_num _ _ (by simp) (by simp) L) ?_
      unfold Exact8
      rw [him, him]
    · refine step _ _ (hubbardT_num _ _ (by simp) (by simp) L) ?_
      unfold Exact8
      rw [him, him]
  refine ⟨main, fun he => ?_⟩
  obtain ⟨Ws, h1, h2, _, h3⟩ := C56_hubbard U.value mu.value L hL
  exact ⟨Ws, by rw [main.2 he, h1], h2, h3⟩

/-- **C123 fails** for integers: without chemical potential an integer repulsion between 128 and 255, of a tensor of any width or a
Python number, becomes an attraction. -/
theorem C123_integer_fails (bu bm : Nat) (U : Int) (h : 128 ≤ U) (h' : U ≤ 255) (L : Nat) :
    hubbardT (.int bu U) (.int bm 0) L = hubbard ((U - 256 : Int) : ℂ) 0 L := by
  rw [hubbardT_int]
  have : wrapInt 8 U = U - 256 := by
    unfold wrapInt
    rw [Int.bmod_def]
    split <;> omega
  simp [this]
  simp [wrapInt]

theorem trunc_small {x : ℝ} (h : |x| < 1) : TY.trunc x = 0 := by
  obtain ⟨h1, h2⟩ := abs_lt.1 h
  unfold TY.trunc
  split_ifs with h0
  · rw [show ⌊x⌋ = 0 from Int.floor_eq_iff.2 ⟨by simpa using h0, by simpa using h2⟩]; simp
  · rw [show ⌈x⌉ = 0 from Int.ceil_eq_iff.2 ⟨by simp; linarith, by simp; linarith⟩]; simp

theorem storeByte_small (c : ℂ) (x : Blk Int) (hx : ∀ o, |x.f o| ≤ 1) (h : |c.re| < 1) :
    storeByte (mulNum (.complex c) x) = .ok (mulS 0 (Tens.i8 x).values) := by
  have ht : ∀ o, TY.trunc (c * (x.f o : ℂ)).re = 0 := by
    intro o
    refine trunc_small ?_
    rw [Complex.mul_re, Complex.intCast_re, Complex.intCast_im, mul_zero, sub_zero, abs_mul]
    have : |(x.f o : ℝ)| ≤ 1 := by exact_mod_cast hx o
    calc |c.re| * |(x.f o : ℝ)| ≤ |c.re| * 1 := mul_le_mul_of_nonneg_left this (abs_nonneg _)
      _ < 1 := by simpa using h
  have ht' : ∀ o, TY.trunc (c.re * (x.f o : ℝ)) = 0 := by
    intro o
    have := ht o
    rwa [Complex.mul_re, Complex.intCast_re, Complex.intCast_im, mul_zero, sub_zero] at this
  unfold mulNum storeByte
  simp only [ht]
  rw [if_pos (by intro o _; simp [ht'])]
  simp [mulS, TY.cast, ht', Tens.values]

theorem pauli_small : (∀ o, |(pauliLo : Blk Int).f o| ≤ 1) ∧ (∀ o, |(tr pauliLo : Blk Int).f o| ≤ 1) ∧ ∀ o, |(pauliSz : Blk Int).f o| ≤ 1 := by
  refine ⟨fun o => ?_, fun o => ?_, fun o => ?_⟩
  · simp only [pauliLo, put, zeros]; split_ifs <;> simp
  · simp only [tr, pauliLo, put, zeros]; split_ifs <;> simp
  · simp only [pauliSz, put, zeros]; split_ifs <;> simp

/-- **C123 fails** for complex couplings: `Heisenberg(J, L)` makes tensors of integers, and every complex coupling whose real part is
between -2 and 2 gives the Hamiltonian without coupling. -/
theorem C123_complex_fails (z : ℂ) (h : |z.re| < 2) (L : Nat) (hL : 2 ≤ L) :
    ∃ Ws, heisenbergT (.complex z) L = .ok Ws ∧ mpoMatrix L 2 Ws = 0 := by
  obtain ⟨h1, h2⟩ := abs_lt.1 h
  have hz : (-z / 4).re = -z.re / 4 := by simp
  have hz2 : (2 * (-z / 4)).re = -z.re / 2 := by
    rw [Complex.mul_re, hz]; simp; ring
  obtain ⟨q1, q2, q3⟩ := pauli_small
  have e : heisenbergTensorT (.complex (-z / 4)) = .ok (heisenbergTensor 0) := by
    unfold heisenbergTensorT heisenbergTensor
    have a1 : |(2 * (-z / 4)).re| < 1 := by rw [hz2, abs_lt]; constructor <;> linarith
    have a2 : |(-z / 4).re| < 1 := by rw [hz, abs_lt]; constructor <;> linarith
    simp only [storeFor, Num.twice, storeByte_small _ _ q1 a1, storeByte_small _ _ q2 a1, storeByte_small _ _ q3 a2, values_lo, values_tr,
      values_sz, values_one, bind, Except.bind, mul_zero]
  obtain ⟨Ws, g1, _, _, g2⟩ := C55_heisenberg (0 : ℂ) L hL
  refine ⟨Ws, ?_, by rw [g2]; simp⟩
  rw [← g1]
  unfold heisenbergT heisenberg heisenbergImpl
  simp only [Num.neg, Num.quarter, e, bind, Except.bind]
  norm_num

/-- The premises are met: `Heisenberg(1, 3)` and `Hubbard(4, 2, 3)` of Python integers. -/
example : (∃ Ws, heisenbergT (PyNum.int 1).toTensor 3 = .ok Ws ∧ Ws.length = 3) ∧
    hubbardT (PyNum.int 4).toTensor (PyNum.int 2).toTensor 3 = hubbard 4 2 3 := by
  constructor
  · obtain ⟨Ws, h1, h2, _⟩ := C123_heisenberg_partial (PyNum.int 1).toTensor (by simp [PyNum.toTensor])
      (by intro b n h; cases h; norm_num) 3 (by omega)
    exact ⟨Ws, h1, h2⟩
  · have := (C123_hubbard_partial (PyNum.int 4).toTensor (PyNum.int 2).toTensor 3 (by omega)).1.2 (by simp [PyNum.toTensor, Exact8])
    simpa [PyNum.toTensor, Num.value] using this

/-- `Hubbard(200, 0, 3)` of Python integers has an attraction of 56, while `Hubbard(200.0, 0.0, 3)` is as meant. -/
example : hubbardT (PyNum.int 200).toTensor (PyNum.int 0).toTensor 3 = hubbard (-56) 0 3 ∧
    hubbardT (PyNum.float 200).toTensor (PyNum.float 0).toTensor 3 = hubbard 200 0 3 := by
  constructor
  · have := C123_integer_fails 64 64 200 (by omega) (by omega) 3
    norm_num at this
    exact this
  · have := (C123_hubbard_partial (PyNum.float 200).toTensor (PyNum.float 0).toTensor 3 (by omega)).1.2 (by simp [PyNum.toTensor, Exact8, Num.value])
    simpa [PyNum.toTensor, Num.value] using this

end HM
end QuantiT
