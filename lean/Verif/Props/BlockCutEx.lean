import Verif.Props.BlockCutRun
import Verif.Props.BlockDmrgEx
import Verif.Props.CutEx
import Verif.Lemmas.TidyLevel
/-
Cases that meet the hypotheses of C97: hopping between two sites with a U(1) charge, with every cutoff and every limits of the bond.
-/
namespace QuantiT.BN
open Spec BT MP Finset

theorem hop_above : BoundedAbove (hopWs.map denseOf) [2, 2] 1 := by
  intro v
  simp only [star_trivial]
  rw [hop_sum v v, DM.sum_two_two]
  simp
  nlinarith [sq_nonneg (v [0, 1] - v [1, 0]), sq_nonneg (v [0, 0]), sq_nonneg (v [1, 1])]

theorem hop_small {s : List (BT Int ℝ)} (hs : HopGood s) {A : BT Int ℝ} (hA : s[0]? = some A) :
    A.shape.take 2 = [[(1, 0)], [(1, 1), (1, -1)]] := by
  have hF := hs.fit.ket
  have q1 := hs.outer.phys
  have q2 := hs.outer.left
  obtain ⟨A', B', rfl⟩ := List.length_eq_two.1 hs.len
  cases hA
  obtain ⟨l, c, r, hA⟩ : ∃ l c r, A.shape = [l, c, r] := List.length_eq_three.1 (hF.1 _ (by simp)).2
  simp only [List.map_cons, List.map_nil, List.cons.injEq, and_true] at q1
  have q1 := q1.1
  have q2 : A.shape.getD 0 [] = _ := q2
  rw [hA] at q1 q2 ⊢
  simp at q1 q2
  subst q1 q2
  rfl

theorem hop_semi {s : List (Blk ℝ)} (h : s.length = 2) : PairSemi s 0 := by
  constructor
  · intro i A _ h; omega
  · intro i A hA hi
    have := (List.getElem?_eq_some_iff.1 hA).1
    omega
  · intro i A B _ _ h; omega
  · intro i A B _ hB hi
    have := (List.getElem?_eq_some_iff.1 hB).1
    omega

/-- The two-site tensor found from the starting state and from every ground state is the ground state, with two equal singular values. -/
theorem hop_pair {fac : Blk ℝ → Blk ℝ × Blk ℝ × Blk ℝ} (hfac : DenseSvd fac) (eps cutoff : ℝ) (he0 : 0 < eps) (hcut : 0 ≤ cutoff) (minB maxB : Nat)
    (hmin : 1 ≤ minB) {s : List (BT Int ℝ)} (hs : HopGood s) (late : Bool)
    (he : s = hopS ∨ energy (hopWs.map denseOf) (s.map denseOf) = -1) (t : BT Int ℝ) (h : NewPair late hopWs hopS s 0 t) :
    Tidy fac eps cutoff minB maxB t 2 := by
  have hreg := hop_regular hs (he.imp (fun h => by rw [h]; exact hopStart_energy) id)
  obtain ⟨A, B, W1, W2, le, re, h2, ψ, E, θ, n, i, m, j, n', gA, gB, gW1, gW2, i1, i2, i3, hψ, t1, hA, hB, t2, t3, tS, u4, u5, u6, u7, hN, hsupp, hnew⟩ :=
    DM.update_full_semi (hopWs.map denseOf) (s.map denseOf) 0 (fit_dense hs.fit) hs.closed hopClosedW (by rw [hs.phys]; exact hop_herm)
      (by simp [hs.len]) (hop_semi (by simpa using hs.len)) hs.norm hreg
  obtain ⟨A0, B0, V1, V2, L, Rt, Le, Re, H2, q, le', re', h2', ψ', l, c, k, k', c', r, N, S⟩ :=
    update_setup late hopWs hopS s (fun _ => Res.ub) 0 hs.fit hs.start hopPositive hs.closed hopClosedW (hopLate late) hopNeutral (by rw [hs.len]; omega)
  rw [List.getElem?_map] at gA gB gW1 gW2
  rw [S.gA] at gA; cases gA
  rw [S.gB] at gB; cases gB
  rw [S.gW1] at gW1; cases gW1
  rw [S.gW2] at gW2; cases gW2
  rw [S.dl] at i1; cases i1
  rw [S.dr] at i2; cases i2
  rw [S.dh] at i3; cases i3
  rw [S.dq] at hψ; cases hψ
  obtain ⟨N5, fe, t', a1, a2, a3, a4, a5, a6⟩ := twoSitesUpdateB_ok S.fit (by
    intro M ψ' hψ'
    refine hop_shared hs late q ψ' ⟨A0, B0, V1, V2, L, Rt, Le, Re, H2, max M N, S.gA, S.gB, S.gW1, S.gW2, fun fuel hf => ?_⟩
    obtain ⟨y1, y2, y3, y4, y5⟩ := S.runs fuel (by omega)
    exact ⟨y1, y2, y3, y4, y5, hψ' fuel (by omega)⟩) t1
  -- it is the tensor in question
  obtain ⟨X1, X2, X3, X4, X5, X6, X7, X8, X9, X10, X11, N6, z1, z2, z3, z4, z5⟩ := h
  rw [S.gA] at z1; cases z1
  rw [S.gB] at z2; cases z2
  rw [S.gW1] at z3; cases z3
  rw [S.gW2] at z4; cases z4
  obtain ⟨y1, y2, y3, y4, y5⟩ := S.runs (max N (max N5 N6)) (by omega)
  obtain ⟨w1, w2, w3, w4, w5, w6⟩ := z5 (max N (max N5 N6)) (by omega)
  rw [y1] at w1; cases w1
  rw [y2] at w2; cases w2
  rw [y3] at w3; cases w3
  rw [y4] at w4; cases w4
  rw [y5] at w5; cases w5
  rw [a1 _ (by omega)] at w6; cases w6
  -- its entries
  obtain ⟨A1, B1, rfl⟩ := List.length_eq_two.1 hs.len
  have q1 := hs.outer.phys
  have q2 : A1.shape.getD 0 [] = _ := hs.outer.left
  have q3 : B1.shape.getD 2 [] = _ := hs.outer.right
  have gA := S.gA
  have gB := S.gB
  simp only [List.getElem?_cons_zero, List.getElem?_cons_succ, Option.some.injEq] at gA gB
  subst gA gB
  simp only [List.map_cons, List.map_nil, List.cons.injEq, and_true] at q1
  obtain ⟨q4, q5⟩ := q1
  have dA := S.dA
  have dB := S.dB
  rw [dA] at q2 q4
  rw [dB] at q3 q5
  simp only [List.getD_cons_zero, List.getD_cons_succ] at q2 q3 q4 q5
  have hsh : t.shape = [[(1, 0)], [(1, 1), (1, -1)], [(1, 1), (1, -1)], [(1, 0)]] := by
    rw [a3, S.sq, q2, q3, q4, q5]
    rfl
  rw [denseOf_dims, dA] at hA
  rw [denseOf_dims, dB] at hB
  obtain ⟨rfl, rfl, rfl⟩ : dimSize l = n ∧ dimSize c = i ∧ dimSize k = m := by simpa using hA
  obtain ⟨-, rfl, rfl⟩ : dimSize k' = dimSize k ∧ dimSize c' = j ∧ dimSize r = n' := by simpa using hB
  have hE : E ≤ -1 := by
    rcases he with he | he
    · rw [he] at u6
      exact hop_trial late u6
    · rw [he] at u4; exact u4
  rw [hs.phys] at u7
  have hv : ∀ a b, pairAmp ((([A1, B1] : List (BT Int ℝ)).map denseOf).take 0) θ ((([A1, B1] : List (BT Int ℝ)).map denseOf).drop (0 + 2)) [a, b] 0 0 = θ.f [0, a, b, 0] := by
    intro a b
    have e1 : dimSize r = 1 := by rw [q3]; rfl
    have e2 : dimSize l = 1 := by rw [q2]; rfl
    simp [pairAmp, t2, amp, e1, e2]
  rw [u7] at hE
  unfold vecEnergy at hE
  simp only [star_trivial] at hE
  rw [hop_sum (fun σ => pairAmp ((([A1, B1] : List (BT Int ℝ)).map denseOf).take 0) θ ((([A1, B1] : List (BT Int ℝ)).map denseOf).drop (0 + 2)) σ 0 0)
    (fun σ => pairAmp ((([A1, B1] : List (BT Int ℝ)).map denseOf).take 0) θ ((([A1, B1] : List (BT Int ℝ)).map denseOf).drop (0 + 2)) σ 0 0), hv, hv] at hE
  have hnorm : θ.f [0, 0, 0, 0] ^ 2 + θ.f [0, 0, 1, 0] ^ 2 + θ.f [0, 1, 0, 0] ^ 2 + θ.f [0, 1, 1, 0] ^ 2 = 1 := by
    have h1 := DM.norm_toV [dimSize l, dimSize c, dimSize c', dimSize r] θ
    rw [t3] at h1
    have hcf : configs [dimSize l, dimSize c, dimSize c', dimSize r] = {[0, 0, 0, 0], [0, 0, 1, 0], [0, 1, 0, 0], [0, 1, 1, 0]} := by
      rw [q2, q3, q4, q5]
      decide
    rw [hcf, sum_insert (by decide), sum_insert (by decide), sum_insert (by decide), sum_singleton] at h1
    simp at h1
    linarith
  have hin : ∀ a b, a < 2 → b < 2 → InRange [0, a, b, 0] (t.shape.map dimSize) := by
    intro a b ha hb
    rw [hsh]
    unfold InRange
    simp only [List.map_cons, List.map_nil]
    exact .cons (by decide) (.cons ha (.cons hb (.cons (by decide) .nil)))
  have hent : ∀ a b, a < 2 → b < 2 → entry t.shape t.blocks [0, a, b, 0] = θ.f [0, a, b, 0] := fun a b ha hb => (a5.f (hin a b ha hb)).symm
  simp at hE
  have f1 : θ.f [0, 1, 0, 0] = - θ.f [0, 0, 1, 0] := by
    nlinarith [sq_nonneg (θ.f [0, 1, 0, 0] + θ.f [0, 0, 1, 0]), sq_nonneg (θ.f [0, 0, 0, 0]), sq_nonneg (θ.f [0, 1, 1, 0])]
  have f2 : θ.f [0, 0, 0, 0] = 0 := by
    have : θ.f [0, 0, 0, 0] ^ 2 ≤ 0 := by
      nlinarith [sq_nonneg (θ.f [0, 1, 0, 0] + θ.f [0, 0, 1, 0]), sq_nonneg (θ.f [0, 0, 0, 0]), sq_nonneg (θ.f [0, 1, 1, 0])]
    exact pow_eq_zero_iff two_ne_zero |>.1 (le_antisymm this (sq_nonneg _))
  have f3 : θ.f [0, 1, 1, 0] = 0 := by
    have : θ.f [0, 1, 1, 0] ^ 2 ≤ 0 := by
      nlinarith [sq_nonneg (θ.f [0, 1, 0, 0] + θ.f [0, 0, 1, 0]), sq_nonneg (θ.f [0, 0, 0, 0]), sq_nonneg (θ.f [0, 1, 1, 0])]
    exact pow_eq_zero_iff two_ne_zero |>.1 (le_antisymm this (sq_nonneg _))
  have f4 : θ.f [0, 0, 1, 0] * θ.f [0, 0, 1, 0] = 1 / 2 := by
    rw [f1, f2, f3] at hnorm
    linarith
  refine tidy_level hfac t [[(1, 0)], [(1, 1), (1, -1)]] [[(1, 1), (1, -1)], [(1, 0)]] hsh (by simp) (by simp) a5.1.1 ?_ ?_ (by decide) eps cutoff he0 hcut
    minB maxB hmin (1 / 2) (by norm_num) ?_
  · rw [hsh]; decide
  · rw [hsh]; unfold NoEmpty; decide
  · have c1 : configs (([[(1, 0)], [(1, 1), (1, -1)]] : Shape Int).map dimSize) = {[0, 0], [0, 1]} := by decide
    have c2 : configs (([[(1, 1), (1, -1)], [(1, 0)]] : Shape Int).map dimSize) = {[0, 0], [1, 0]} := by decide
    rw [c1, c2]
    intro e he e' he'
    rw [sum_insert (by decide), sum_singleton]
    simp only [mem_insert, mem_singleton] at he he'
    have g1 := hent 0 0 (by omega) (by omega)
    have g2 := hent 0 1 (by omega) (by omega)
    have g3 := hent 1 0 (by omega) (by omega)
    have g4 := hent 1 1 (by omega) (by omega)
    rw [f2] at g1
    rw [f3] at g4
    rw [f1] at g3
    rcases he with rfl | rfl <;> rcases he' with rfl | rfl <;> simp [g1, g2, g3, g4, f4]

theorem amp_pair {A B : Blk ℝ} {k : Nat} (hA : A.dims = [1, 2, k]) (hB : B.dims = [k, 2, 1]) (a b : Nat) :
    amp [A, B] [a, b] 0 0 = ∑ m ∈ range k, A.f [0, a, m] * B.f [m, b, 0] := by
  simp [amp, hA, hB]

/-- A truncation of the ground state keeps both its values, which are equal, whatever the limits. -/
theorem hop_trunc {X Y : Blk ℝ} {m : Nat} (hX : X.dims = [1, 2, m]) (hY : Y.dims = [m, 2, 1]) {v : List Nat → ℝ} (hv : vecEnergy (hopWs.map denseOf) [2, 2] v ≤ -1)
    {s' : List (Blk ℝ)} {eps cutoff : ℝ} (he0 : 0 < eps) (he1 : eps ≤ 1 / 2) {minB maxB : Nat} {w : ℝ}
    (T : BlockTruncation [2, 2] v [X, Y] s' 0 eps cutoff minB maxB w) : usedBond s' 0 = 2 ∧ w = 0 := by
  have hn := T.norm
  unfold vecNormSq at hn
  rw [DM.sum_two_two] at hn
  simp only [Real.norm_eq_abs, sq_abs] at hn
  unfold vecEnergy at hv
  simp only [star_trivial] at hv
  rw [hop_sum v v] at hv
  simp at hv
  have f1 : v [1, 0] = - v [0, 1] := by
    nlinarith [sq_nonneg (v [1, 0] + v [0, 1]), sq_nonneg (v [0, 0]), sq_nonneg (v [1, 1])]
  have f2 : v [0, 0] = 0 := by
    have : v [0, 0] ^ 2 ≤ 0 := by
      nlinarith [sq_nonneg (v [1, 0] + v [0, 1]), sq_nonneg (v [0, 0]), sq_nonneg (v [1, 1])]
    exact pow_eq_zero_iff two_ne_zero |>.1 (le_antisymm this (sq_nonneg _))
  have f3 : v [1, 1] = 0 := by
    have : v [1, 1] ^ 2 ≤ 0 := by
      nlinarith [sq_nonneg (v [1, 0] + v [0, 1]), sq_nonneg (v [0, 0]), sq_nonneg (v [1, 1])]
    exact pow_eq_zero_iff two_ne_zero |>.1 (le_antisymm this (sq_nonneg _))
  rw [f1, f2, f3] at hn
  have f4 : v [0, 1] ^ 2 = 1 / 2 := by linarith
  have hov : ∀ s : List (Blk ℝ), vecOverlap [2, 2] v s = v [0, 1] * (amp s [0, 1] 0 0 - amp s [1, 0] 0 0) := by
    intro s
    unfold vecOverlap
    rw [DM.sum_two_two, f1, f2, f3]
    simp only [star_trivial]
    ring
  have hfits : ∀ A B k, PairFits [X, Y] 0 A B k → A.dims = [1, 2, k] ∧ B.dims = [k, 2, 1] := by
    rintro A B k ⟨A0, B0, n, i, m', j, n', r1, r2, r3, r4, r5, r6⟩
    cases r1
    cases r2
    rw [hX] at r3; cases r3
    rw [hY] at r4; cases r4
    exact ⟨r5, r6⟩
  have hnorm : ∀ A B k, A.dims = [1, 2, k] → B.dims = [k, 2, 1] → normSq [A, B] = amp [A, B] [0, 0] 0 0 ^ 2 + amp [A, B] [0, 1] 0 0 ^ 2
      + amp [A, B] [1, 0] 0 0 ^ 2 + amp [A, B] [1, 1] 0 0 ^ 2 := fun A B k hA hB => DM.flip_norm (by simp [phys, hA, hB])
  -- with two elements nothing is lost
  have hfull : ∃ A B, PairFits [X, Y] 0 A B 2 ∧ normSq (withPair [X, Y] 0 A B) = 1 ∧ ‖vecOverlap [2, 2] v (withPair [X, Y] 0 A B)‖ ^ 2 = 1 := by
    let A : Blk ℝ := ⟨[1, 2, 2], fun o => if o = [0, 0, 0] ∨ o = [0, 1, 1] then 1 else 0⟩
    let B : Blk ℝ := ⟨[2, 2, 1], fun o => v (o.take 2)⟩
    have ha : ∀ a b, a < 2 → b < 2 → amp [A, B] [a, b] 0 0 = v [a, b] := by
      intro a b ha hb
      rw [amp_pair (k := 2) rfl rfl, sum_range_succ, sum_range_succ, sum_range_zero]
      interval_cases a <;> interval_cases b <;> simp [A, B]
    refine ⟨A, B, ⟨X, Y, 1, 2, m, 2, 1, rfl, rfl, hX, hY, rfl, rfl⟩, ?_, ?_⟩
    · show normSq [A, B] = 1
      rw [hnorm A B 2 rfl rfl, ha 0 0 (by omega) (by omega), ha 0 1 (by omega) (by omega), ha 1 0 (by omega) (by omega), ha 1 1 (by omega) (by omega), f1, f2, f3]
      linarith
    · show ‖vecOverlap [2, 2] v [A, B]‖ ^ 2 = 1
      rw [hov, ha 0 1 (by omega) (by omega), ha 1 0 (by omega) (by omega), f1, Real.norm_eq_abs, sq_abs]
      nlinarith
  -- with one element half is lost
  have hhalf : ∀ A B, PairFits [X, Y] 0 A B 1 → normSq (withPair [X, Y] 0 A B) = 1 → ‖vecOverlap [2, 2] v (withPair [X, Y] 0 A B)‖ ^ 2 ≤ 1 / 2 := by
    intro A B hf h1
    obtain ⟨hA, hB⟩ := hfits A B 1 hf
    have h1 : normSq [A, B] = 1 := h1
    show ‖vecOverlap [2, 2] v [A, B]‖ ^ 2 ≤ 1 / 2
    rw [hnorm A B 1 hA hB] at h1
    rw [hov, Real.norm_eq_abs, sq_abs, mul_pow, f4]
    simp only [amp_pair hA hB, sum_range_one] at h1 ⊢
    nlinarith [sq_nonneg (A.f [0, 0, 0] * B.f [0, 0, 0] + A.f [0, 1, 0] * B.f [0, 1, 0])]
  obtain ⟨K, k1, -, -, -, lst, hS, hu⟩ := T.fewest
  obtain ⟨A, B, g1, g2, g3⟩ := hfull
  have hb := hS.best A B 2 g1 g2
  rw [g3] at hb
  have htot := hS.total
  have hso := hS.sorted
  have hn0 := hS.nonneg
  have hone := hS.attained 1 le_rfl
  have h0 : ∀ l : List ℝ, 0 ≤ (l.map (· ^ 2)).sum := fun l => List.sum_nonneg (by
    intro x hx
    obtain ⟨y, _, rfl⟩ := List.mem_map.1 hx
    exact sq_nonneg y)
  have hused : usedBond s' 0 = 2 := by
    rw [hu]
    match lst, hb, htot, hso, hn0, hone with
    | [], _, htot, _, _, _ => simp at htot
    | [a], _, htot, _, _, hone =>
      obtain ⟨A1, B1, r1, r2, r3⟩ := hone (by simp)
      have := hhalf A1 B1 r1 r2
      rw [r3] at this
      simp only [List.take_succ_cons, List.take_zero, List.map_cons, List.map_nil] at this htot
      rw [htot] at this
      norm_num at this
    | a :: b :: rest, hb, htot, hso, hn0, hone =>
      obtain ⟨A1, B1, r1, r2, r3⟩ := hone (by simp)
      have ha := hhalf A1 B1 r1 r2
      rw [r3] at ha
      simp at ha hb htot
      have ha0 := hn0 a (by simp)
      have hb0 := hn0 b (by simp)
      have hab : b ≤ a := List.rel_of_pairwise_cons hso (by simp)
      have hr0 := h0 rest
      have hb2 : b ^ 2 ≤ a ^ 2 := pow_le_pow_left₀ hb0 hab 2
      have e1 : a ^ 2 = 1 / 2 := by norm_num at ha; linarith
      have e2 : b ^ 2 = 1 / 2 := by norm_num at ha; linarith
      have e3 : (rest.map (· ^ 2)).sum = 0 := by linarith
      have hba : b = a := by
        exact (pow_left_inj₀ hb0 ha0 two_ne_zero).1 (by rw [e1, e2])
      have hapos : 0 < a := by
        rcases ha0.lt_or_eq with h | h
        · exact h
        · rw [← h] at e1; norm_num at e1
      have hrest : ∀ x ∈ rest, x = 0 := by
        intro x hx
        have : x ^ 2 ≤ (rest.map (· ^ 2)).sum := List.single_le_sum (by
          intro y hy
          obtain ⟨z, _, rfl⟩ := List.mem_map.1 hy
          exact sq_nonneg z) _ (List.mem_map.2 ⟨x, hx, rfl⟩)
        rw [e3] at this
        exact pow_eq_zero_iff two_ne_zero |>.1 (le_antisymm this (sq_nonneg _))
      have hK : (a :: b :: rest).getD (K - 1) 0 = a ∨ (a :: b :: rest).getD (K - 1) 0 = 0 := by
        match K - 1 with
        | 0 => exact .inl rfl
        | 1 => exact .inl hba
        | j + 2 =>
          right
          show rest.getD j 0 = 0
          rw [List.getD_eq_getElem?_getD]
          cases h : rest[j]? with
          | none => rfl
          | some x => exact hrest x (List.mem_of_getElem? h)
      have hthr : 0 ≤ (1 - 2 * eps) * (a :: b :: rest).getD (K - 1) 0 ∧ (1 - 2 * eps) * (a :: b :: rest).getD (K - 1) 0 < a := by
        rcases hK with h | h
        · rw [h]
          constructor
          · exact mul_nonneg (by linarith) ha0
          · nlinarith
        · rw [h, mul_zero]
          exact ⟨le_rfl, hapos⟩
      rw [List.filter_cons, if_pos (by simpa using hthr.2), List.filter_cons, if_pos (decide_eq_true (hthr.2.trans_eq hba.symm)), List.filter_eq_nil_iff.2]
      · rfl
      · intro x hx
        rw [hrest x hx]
        simpa using hthr.1
  refine ⟨hused, ?_⟩
  have h1 := T.best A B 2 g1 (by rw [hused]) g2
  rw [g3] at h1
  have := T.lost.1
  linarith

/-- The updates of the example: from the starting state and from every ground state they find a ground state. -/
theorem hop_cut {fac : Blk ℝ → Blk ℝ × Blk ℝ × Blk ℝ} (hfac : DenseSvd fac) (eps cutoff : ℝ) (he0 : 0 < eps) (he1 : eps ≤ 1 / 2) (hcut : 0 ≤ cutoff)
    (minB maxB : Nat) (hmin : 1 ≤ minB) (late fwd : Bool) {s : List (BT Int ℝ)} (hs : HopGood s)
    (he : s = hopS ∨ energy (hopWs.map denseOf) (s.map denseOf) = -1) :
    CutAdmissible late hopWs hopS fac eps cutoff minB maxB 0 s ∧ ∃ s', (cutDmrgB late hopWs fac eps cutoff minB maxB hopS).fresh 0 fwd s = .ok (-1, s') ∧
      HopGood s' ∧ energy (hopWs.map denseOf) (s'.map denseOf) = -1 ∧ usedBond (s'.map denseOf) 0 = 2 := by
  have hadm : CutAdmissible late hopWs hopS fac eps cutoff minB maxB 0 s :=
    ⟨hop_regular hs (he.imp (fun h => by rw [h]; exact hopStart_energy) id), fun ψ ψ' h => hop_shared hs late ψ ψ' h,
      fun t ht => hop_pair hfac eps cutoff he0 hcut minB maxB hmin hs late he t ht, fun A hA => by rw [hop_small hs hA]; decide,
      fun A hA => by rw [hop_small hs hA]; decide⟩
  refine ⟨hadm, ?_⟩
  obtain ⟨E, s', v, w, a1, a2, a3, a4, a5, a6, a7, a8, a9, _, b1, b2⟩ := C97_update_partial late hopWs hopS s hfac eps cutoff he0 he1 hcut minB maxB (.inl hmin) 0 fwd
    hs.fit hs.start hopPositive hs.closed hopClosedW (hopLate late) hopNeutral (by rw [hs.phys]; exact hop_herm) (by rw [hs.len]; omega)
    (hop_semi (by simpa using hs.len)) hs.norm hadm
  rw [hs.phys] at a7 a8 b2
  have hE : E ≤ -1 := by
    rcases he with he | he
    · rw [he] at b1
      exact hop_trial late b1
    · rw [he] at a9; exact a9
  have hlo : -1 ≤ E := by rw [a7]; exact (DM.vec_bounds a8.norm).1 (-1) hop_bound
  have hE1 : E = -1 := le_antisymm hE hlo
  have hsd : ∃ X Y m, s.map denseOf = [X, Y] ∧ X.dims = [1, 2, m] ∧ Y.dims = [m, 2, 1] := by
    obtain ⟨A, B, g⟩ := a8.pair
    obtain ⟨g1, A0, B0, n, i, m, j, n', r1, r2, r3, r4, -, -⟩ := g
    have hc := hs.closed
    have hp := hs.phys
    obtain ⟨A1, B1, rfl⟩ := List.length_eq_two.1 hs.len
    cases r1
    cases r2
    unfold Closed at hc
    simp [leftEnd, rightEnd, r3, r4] at hc
    simp [phys, r3, r4] at hp
    obtain ⟨rfl, rfl⟩ := hc
    obtain ⟨rfl, rfl⟩ := hp
    exact ⟨_, _, m, rfl, r3, r4⟩
  obtain ⟨X, Y, m, hXY, hX, hY⟩ := hsd
  rw [hXY] at a8
  obtain ⟨t1, t2⟩ := hop_trunc hX hY (by rw [← a7]; exact hE) he0 he1 a8
  have hen := b2 (-1) 1 hop_bound hop_above
  rw [t2, Real.sqrt_zero, mul_zero] at hen
  have hen' : energy (hopWs.map denseOf) (s'.map denseOf) = -1 := by
    have := abs_nonpos_iff.1 hen
    linarith
  subst hE1
  exact ⟨s', a1, hop_ground a2 (SameOuter.trans hs.outer a3) a4 a6 hen', hen', t1⟩

theorem hop_cut_run {fac : Blk ℝ → Blk ℝ × Blk ℝ × Blk ℝ} (hfac : DenseSvd fac) (eps cutoff : ℝ) (he0 : 0 < eps) (he1 : eps ≤ 1 / 2) (hcut : 0 ≤ cutoff)
    (minB maxB : Nat) (hmin : 1 ≤ minB) (late : Bool) :
    ∀ (l : List (Nat × Bool)) (s : List (BT Int ℝ)), (∀ p ∈ l, p.1 = 0) → HopGood s → (s = hopS ∨ energy (hopWs.map denseOf) (s.map denseOf) = -1) →
      DM.RunAll (cutDmrgB late hopWs fac eps cutoff minB maxB hopS) (CutAdmissible late hopWs hopS fac eps cutoff minB maxB) l s ∧
      (2 < maxB → DM.RunAll (cutDmrgB late hopWs fac eps cutoff minB maxB hopS)
        (fun o s => CutAdmissible late hopWs hopS fac eps cutoff minB maxB o s ∧ RoomB (cutDmrgB late hopWs fac eps cutoff minB maxB hopS) maxB o s) l s)
  | [], _, _, _, _ => ⟨trivial, fun _ => trivial⟩
  | (o, f) :: l, s, hl, hg, he => by
    have ho : o = 0 := hl (o, f) (by simp)
    subst ho
    have H := fun fwd => hop_cut hfac eps cutoff he0 he1 hcut minB maxB hmin late fwd hg he
    obtain ⟨h1, s', h2, h3, h4, h5⟩ := H f
    have ih := hop_cut_run hfac eps cutoff he0 he1 hcut minB maxB hmin late l s' (fun p hp => hl p (by simp [hp])) h3 (.inr h4)
    refine ⟨⟨h1, fun r hr => ?_⟩, fun hm => ⟨⟨h1, fun f' r hr => ?_⟩, fun r hr => ?_⟩⟩
    · rw [h2] at hr; cases hr; exact ih.1
    · obtain ⟨_, s1, g2, _, _, g5⟩ := H f'
      rw [g2] at hr; cases hr
      simp only
      omega
    · rw [h2] at hr; cases hr; exact ih.2 hm

/-- The hypotheses of `C97_update_partial` are met, by an update that finds the ground state and truncates it. -/
example : ∃ (fac : Blk ℝ → Blk ℝ × Blk ℝ × Blk ℝ) (s' : List (BT Int ℝ)), energy (hopWs.map denseOf) (hopS.map denseOf) = 24 / 25 ∧
    CutAdmissible true hopWs hopS fac (1/1000) (1/10) 1 1 0 hopS ∧
    (cutDmrgB true hopWs fac (1/1000) (1/10) 1 1 hopS).fresh 0 true hopS = .ok (-1, s') ∧ energy (hopWs.map denseOf) (s'.map denseOf) = -1 ∧
    usedBond (s'.map denseOf) 0 = 2 := by
  obtain ⟨fac, hfac⟩ := LA.denseSvd_exists ℝ
  obtain ⟨h1, s', h2, _, h4, h5⟩ := hop_cut hfac (1/1000) (1/10) (by norm_num) (by norm_num) (by norm_num) 1 1 le_rfl true true hopStart (.inl rfl)
  exact ⟨fac, s', hopStart_energy, h1, h2, h4, h5⟩

/-- The hypotheses of the theorems about runs are met, with any number of sweeps, any cutoff and any limits of the bond. -/
example : ∃ fac : Blk ℝ → Blk ℝ × Blk ℝ × Blk ℝ, ∀ (late : Bool) (dflt : Res (BT Int ℝ)) (above : ℝ → ℝ → Bool) (zeroNorm : List (BT Int ℝ) → Bool)
    (moveOc : List (BT Int ℝ) → Nat → Nat → Res (List (BT Int ℝ) × Nat)) (maxIt : Nat), 1 ≤ maxIt → ∀ (cutoff : ℝ), 0 ≤ cutoff →
    ∀ minB maxB, 1 ≤ minB → ∃ e fin log,
      DM.dmrg false (cutDmrgB late hopWs fac (1/1000) cutoff minB maxB hopS) dflt above zeroNorm moveOc 100000 maxIt 2 hopS 0 = .ok (e, fin, 0, log) ∧
      (∃ n, Event.iteration n e fin ∈ log ∧ normSq (fin.map denseOf) = 1 ∧ -1 ≤ e) ∧
      (2 < maxB → |e - energy (hopWs.map denseOf) (fin.map denseOf)| ≤ 2 * cutoff) := by
  obtain ⟨fac, hfac⟩ := LA.denseSvd_exists ℝ
  refine ⟨fac, fun late dflt above zeroNorm moveOc maxIt hmax cutoff hcut minB maxB hmin => ?_⟩
  have hg := hopStart
  obtain ⟨hr1, hr2⟩ := hop_cut_run hfac (1/1000) cutoff (by norm_num) (by norm_num) hcut minB maxB hmin late (DM.tours 2 0 maxIt) hopS
    (DM.tours_two_zero maxIt) hg (.inl rfl)
  obtain ⟨e, fin, log, c1, ⟨n, c2, _⟩, c3⟩ := C97_run_partial late hopWs hopS hfac (1/1000) cutoff (by norm_num) (by norm_num) hcut minB maxB (.inl hmin) hg.fit
    hopPositive hg.closed hopClosedW (hopLate late) hopNeutral hop_herm (by simp) (by simp) 0 (by simp) (DM.canonical_semi hop_canonical) hg.norm dflt above
    zeroNorm moveOc 100000 maxIt hmax hr1
  obtain ⟨_, _, d3, _, d5, _⟩ := c3 n e fin c2
  refine ⟨e, fin, log, c1, ⟨n, c2, d3, d5 (-1) hop_bound⟩, fun hm => ?_⟩
  obtain ⟨e', fin', log', g1, g2, _⟩ := C97_energy_partial late hopWs hopS hfac (1/1000) cutoff (by norm_num) (by norm_num) hcut minB maxB (.inl hmin) hg.fit
    hopPositive hg.closed hopClosedW (hopLate late) hopNeutral hop_herm (by simp) (by simp) 0 (by simp) (DM.canonical_semi hop_canonical) hg.norm dflt above
    zeroNorm moveOc 100000 maxIt hmax (hr2 hm) (-1) 1 hop_bound hop_above
  rw [c1] at g1
  cases g1
  norm_num at g2
  exact g2

end QuantiT.BN
