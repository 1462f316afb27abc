import Verif.Lemmas.CutPair
import Verif.Spec.CutDmrg
import Verif.Model.CutDmrg
/-
One two-site update of the dense DMRG with truncation (C86).
-/
namespace QuantiT
namespace DM
open Finset Spec MP
variable {𝕜 : Type} [RCLike 𝕜]

/-- The product of two sites as a two-site tensor. -/
def pairProd (A B : Blk 𝕜) (n i j n' k : Nat) : Blk 𝕜 :=
  ⟨[n, i, j, n'], fun q => terms (fun e m => A.f (e ++ [m])) (fun f m => B.f (m :: f)) k (q.take 2) (q.drop 2)⟩

/-- Overlaps of states that differ at a pair of sites only are those of their two-site tensors. -/
theorem pair_overlap {Ws s : List (Blk 𝕜)} {o : Nat} (hF : Fit s Ws s) (hc : Closed s) (hcW : Closed Ws) (hcan : PairCanonical s o)
    {A B W1 W2 : Blk 𝕜} {n i m j n' : Nat} (gA : s[o]? = some A) (gB : s[o + 1]? = some B) (gW1 : Ws[o]? = some W1) (gW2 : Ws[o + 1]? = some W2)
    (hA : A.dims = [n, i, m]) (hB : B.dims = [m, j, n']) :
    (∀ θ φ : Blk 𝕜, θ.dims = [n, i, j, n'] → φ.dims = [n, i, j, n'] →
      inner 𝕜 (toV [n, i, j, n'] φ) (toV [n, i, j, n'] θ) = ∑ σ ∈ configs (phys s),
        pairAmp (s.take o) θ (s.drop (o + 2)) σ 0 0 * star (pairAmp (s.take o) φ (s.drop (o + 2)) σ 0 0)) ∧
    ∀ (A' B' θ : Blk 𝕜) (k : Nat), A'.dims = [n, i, k] → B'.dims = [k, j, n'] → θ.dims = [n, i, j, n'] →
      (∀ x c c' y, x < n → c < i → c' < j → y < n' → θ.f [x, c, c', y] = ∑ m ∈ range k, A'.f [x, c, m] * B'.f [m, c', y]) →
      phys (withPair s o A' B') = phys s ∧
      ∀ σ ∈ configs (phys s), pairAmp (s.take o) θ (s.drop (o + 2)) σ 0 0 = amp (withPair s o A' B') σ 0 0 := by
  have hWl : Ws.length = s.length := (Fit.lengths hF).1
  have ho := (List.getElem?_eq_some_iff.1 gB).1
  obtain ⟨hs, hset⟩ := list_pair gA gB
  obtain ⟨hW, _⟩ := list_pair gW1 gW2
  have hpreL : ∀ X ∈ s.take o, LeftOrth X := by
    intro X hX
    obtain ⟨i, hi⟩ := List.mem_iff_getElem?.1 hX
    rw [List.getElem?_take] at hi
    split at hi
    · exact hcan.1 i X hi (by assumption)
    · cases hi
  have hpostR : ∀ X ∈ s.drop (o + 2), RightOrth X := by
    intro X hX
    obtain ⟨i, hi⟩ := List.mem_iff_getElem?.1 hX
    rw [List.getElem?_drop] at hi
    exact hcan.2 _ X hi (by omega)
  have hF' := hF
  rw [hs, hW] at hF'
  have hc' := hc
  rw [hs] at hc'
  have hcW' := hcW
  rw [hW] at hcW'
  obtain ⟨Le, Re, H2, n1, i1, m1, j1, n1', T, hA1, hB1, hp, hp0, _, _, _, _, _, hN⟩ :=
    pair_setup (s.take o) (s.drop (o + 2)) (Ws.take o) (Ws.drop (o + 2)) A B W1 W2 hF' (by simp; omega) hc' hcW' hpreL hpostR
  rw [hA] at hA1
  rw [hB] at hB1
  cases hA1
  cases hB1
  rw [← hs] at hN
  refine ⟨hN, fun A' B' θ k q2 q3 hθ q4 => ?_⟩
  have hphys : phys (s.take o ++ A' :: B' :: s.drop (o + 2)) = phys s := by
    conv_rhs => rw [hs]
    simp [phys, hA, hB, q2, q3]
  unfold withPair
  rw [hset]
  refine ⟨hphys, fun σ hσ => ?_⟩
  exact pairAmp_prod (s.take o) (s.drop (o + 2)) A' B' θ n i k j n' q2 q3 hθ q4 hp σ (by rw [hphys]; exact hσ) 0 0 hp0

/-- **C86** (partial: the residual of the two-site tensor as in C73).  One update of the dense DMRG with its truncated SVD, at any pair of
sites of any chain with ends of size one in canonical form around the pair, for any hermitian Hamiltonian given as an MPO, every
cutoff and every limits of the bond with a minimum of at least one, or a minimum of zero and a cutoff below one: it succeeds; the new state has norm one and is canonical where
the sweep goes on; the energy returned is the expectation value of the Hamiltonian in the state `v` found before truncation, not
above the previous energy; the new chain is the best truncation of `v` with its bond; and its energy differs from the
one returned by at most the width of the spectrum times the square root of the weight lost. -/
theorem C86_update_partial (Ws s : List (Blk 𝕜)) {fac : Blk 𝕜 → Blk 𝕜 × Blk 𝕜 × Blk 𝕜} (hfac : DenseSvd fac) (o : Nat) (fwd : Bool)
    (cutoff : ℝ) (hcut : 0 ≤ cutoff) (minB maxB : Nat) (hmin : 1 ≤ minB ∨ cutoff < 1 ∧ 1 ≤ maxB)
    (hF : Fit s Ws s) (hc : Closed s) (hcW : Closed Ws) (hH : HermitianOp Ws (phys s)) (ho : o + 1 < s.length)
    (hcan : PairCanonical s o) (hn : normSq s = 1) (hreg : Regular Ws s o)
    (hsm : ∀ A B, s[o]? = some A → s[o + 1]? = some B → (A.dims.take 2 ++ B.dims.drop 1).prod < 2 ^ 63) :
    ∃ E s' v w, (cutDmrg Ws fac cutoff minB maxB).fresh o fwd s = .ok (E, s') ∧ Fit s' Ws s' ∧ Closed s' ∧ phys s' = phys s ∧
      Canonical s' (if fwd then o + 1 else o) ∧ normSq s' = 1 ∧
      E = vecEnergy Ws (phys s) v ∧ Truncation (phys s) v s s' o cutoff minB maxB w ∧ E ≤ energy Ws s ∧
      ((∃ ψ ψ', PairTensors Ws s o ψ ψ' ∧ Improvable ψ ψ' (energy Ws s)) → E < energy Ws s) ∧
      (∀ ψ ψ', PairTensors Ws s o ψ ψ' → ∀ (x y : 𝕜) (θ : Blk 𝕜), θ.dims = ψ.dims →
        (∀ o ∈ configs ψ.dims, θ.f o = x * ψ.f o + y * ψ'.f o) →
        E * ∑ σ ∈ configs (phys s), ‖pairAmp (s.take o) θ (s.drop (o + 2)) σ 0 0‖ ^ 2
          ≤ RCLike.re (pairSandwich (s.take o) θ θ (s.drop (o + 2)) Ws (phys s) 0 0 0 0 0 0)) ∧
      ∀ lo hi, BoundedBelow Ws (phys s) lo → BoundedAbove Ws (phys s) hi → |E - energy Ws s'| ≤ (hi - lo) * √w := by
  have hWl : Ws.length = s.length := (Fit.lengths hF).1
  have hlb := left_blkR Ws s (fun X => LA.svdCut fac X 2 cutoff minB maxB fun x => x ^ 2) o (by omega) hWl
  have hrb := right_blkR Ws s (fun X => LA.svdCut fac X 2 cutoff minB maxB fun x => x ^ 2) (o + 2) hWl (by omega)
  obtain ⟨A, B, W1, W2, Le, Re, H2, ψ, E, θ, n, i, m, j, n', T, gA, gB, gW1, gW2, h1, h2, h3, hψ, t1, hA, hB, t2, t3, u4, u5, u6,
    hsym, u7, hE, normV, hnew⟩ := update_full Ws s o hF hc hcW hH ho hcan hn hreg
  obtain ⟨hN, hprod⟩ := pair_overlap hF hc hcW hcan gA gB gW1 gW2 hA hB
  have h63 : θ.dims.prod < 2 ^ 63 := by
    have := hsm A B gA gB
    rw [hA, hB] at this
    rw [t2]; exact this
  obtain ⟨u, d, w, φ, k, c, c1, c2, c3, c4, c5, c6, c7, c8, c10, c11, c9, d1, d2⟩ :=
    cut_pair hfac θ n i j n' t2 t3 h63 cutoff hcut minB maxB hmin
  obtain ⟨A', B', q1, q2, q3, q4, q5, q6⟩ := new_sites c4 c3 fwd
  rw [c5] at q1
  have hupd : blkUpdR Ws (fun X => LA.svdCut fac X 2 cutoff minB maxB fun x => x ^ 2) fwd o
      ((cutDmrg Ws fac cutoff minB maxB).left s o) ((cutDmrg Ws fac cutoff minB maxB).right s (o + 2)) A B = .ok (E, A', B') := by
    unfold blkUpdR cutDmrg
    rw [hlb, hrb, h1, h2, hψ, gW1, gW2]
    simp only [bind, Except.bind, BT.orUb, h3, t1, c1]
    cases fwd with
    | true =>
      simp only [if_true, bind, Except.bind] at q1 ⊢
      cases hm : mulLast w (unitSum d) with
      | error f => rw [hm] at q1; cases q1
      | ok vd =>
        rw [hm] at q1
        simp only at q1 ⊢
        cases hpm : BT.permBlk [2, 0, 1] (conjBlk star vd) with
        | error f => rw [hpm] at q1; cases q1
        | ok nx =>
          rw [hpm] at q1
          cases q1
          rfl
    | false =>
      simp only [Bool.false_eq_true, if_false, bind, Except.bind] at q1 ⊢
      cases hm : mulLast u (unitSum d) with
      | error f => rw [hm] at q1; cases q1
      | ok ud =>
        rw [hm] at q1
        simp only at q1 ⊢
        cases hpm : BT.permBlk [2, 0, 1] (conjBlk star w) with
        | error f => rw [hpm] at q1; cases q1
        | ok nx =>
          rw [hpm] at q1
          cases q1
          rfl
  have hfresh : (cutDmrg Ws fac cutoff minB maxB).fresh o fwd s = .ok (E, withPair s o A' B') := by
    have e : (cutDmrg Ws fac cutoff minB maxB).upd = blkUpdR Ws (fun X => LA.svdCut fac X 2 cutoff minB maxB fun x => x ^ 2) := by
      unfold cutDmrg blkDmrgR
      rfl
    rw [← e] at hupd
    unfold Dmrg.fresh
    rw [gA, gB]
    simp only
    rw [hupd]
    simp only [Except.map]
    rfl
  obtain ⟨w1, w2, w3, w4, w5, w6⟩ := hnew φ A' B' k fwd c2 c3 q2 q3 q4 q5 q6
  have hbond : bondAt (withPair s o A' B') o = k := by
    unfold bondAt withPair
    rw [List.getElem?_set_ne (by omega), List.getElem?_set_self (by omega)]
    simp [q2]
  have hov : ∀ (A' B' χ : Blk 𝕜) (k : Nat), A'.dims = [n, i, k] → B'.dims = [k, j, n'] → χ.dims = [n, i, j, n'] →
      (∀ x c c' y, x < n → c < i → c' < j → y < n' → χ.f [x, c, c', y] = ∑ m ∈ range k, A'.f [x, c, m] * B'.f [m, c', y]) →
      vecOverlap (phys s) (fun σ => pairAmp (s.take o) θ (s.drop (o + 2)) σ 0 0) (withPair s o A' B')
        = inner 𝕜 (toV [n, i, j, n'] θ) (toV [n, i, j, n'] χ) := by
    intro A' B' χ k e1 e2 e3 e4
    rw [hN χ θ e3 t2]
    unfold vecOverlap
    exact sum_congr rfl fun σ hσ => by rw [(hprod A' B' χ k e1 e2 e3 e4).2 σ hσ]
  have hcle : c ≤ 1 := by
    have := norm_inner_le_norm (𝕜 := 𝕜) (toV [n, i, j, n'] φ) (toV [n, i, j, n'] θ)
    rw [c7, c3, t3, RCLike.norm_ofReal, abs_of_pos c6] at this
    linarith
  have hothers : ∀ (A'' B'' : Blk 𝕜) (k' : Nat), PairFits s o A'' B'' k' → normSq (withPair s o A'' B'') = 1 →
      (k' ≤ k → ‖vecOverlap (phys s) (fun σ => pairAmp (s.take o) θ (s.drop (o + 2)) σ 0 0) (withPair s o A'' B'')‖ ^ 2 ≤ c ^ 2) ∧
      (minB ≤ k' → k' < k → ‖vecOverlap (phys s) (fun σ => pairAmp (s.take o) θ (s.drop (o + 2)) σ 0 0) (withPair s o A'' B'')‖ ^ 2 < 1 - cutoff ^ 2) := by
    rintro A'' B'' k' ⟨A0, B0, n0, i0, m0, j0, n0', r1, r2, r3, r4, r5, r6⟩ hnorm
    rw [gA] at r1; cases r1
    rw [gB] at r2; cases r2
    rw [hA] at r3; cases r3
    rw [hB] at r4; cases r4
    have hpf : ∀ x c c' y, x < n → c < i → c' < j → y < n' →
        (pairProd A'' B'' n i j n' k').f [x, c, c', y] = ∑ m ∈ range k', A''.f [x, c, m] * B''.f [m, c', y] := fun _ _ _ _ _ _ _ _ => rfl
    rw [hov A'' B'' (pairProd A'' B'' n i j n' k') k' r5 r6 rfl hpf, norm_inner_symm]
    have hu : ‖toV [n, i, j, n'] (pairProd A'' B'' n i j n' k')‖ = 1 := by
      have h := normV (pairProd A'' B'' n i j n' k') rfl
      have e : ∑ σ ∈ configs (phys s), ‖pairAmp (s.take o) (pairProd A'' B'' n i j n' k') (s.drop (o + 2)) σ 0 0‖ ^ 2
          = normSq (withPair s o A'' B'') := by
        unfold normSq
        obtain ⟨g1, g2⟩ := hprod A'' B'' (pairProd A'' B'' n i j n' k') k' r5 r6 rfl hpf
        rw [g1]
        exact sum_congr rfl fun σ hσ => by rw [g2 σ hσ]
      rw [e, hnorm] at h
      exact (pow_eq_one_iff_of_nonneg (norm_nonneg _) (by norm_num)).1 h
    exact d2 (pairProd A'' B'' n i j n' k') k' (fun e m => A''.f (e ++ [m])) (fun f m => B''.f (m :: f)) hu (fun o _ => rfl)
  have hTr : Truncation (phys s) (fun σ => pairAmp (s.take o) θ (s.drop (o + 2)) σ 0 0) s (withPair s o A' B') o cutoff minB maxB (1 - c ^ 2) := by
    constructor
    · unfold vecNormSq
      rw [← normV θ t2, t3, one_pow]
    · rw [hbond]
      exact ⟨A', B', rfl, A, B, n, i, m, j, n', gA, gB, hA, hB, q2, q3⟩
    · rw [hbond]; exact ⟨c8, c9⟩
    · intro A0 B0 r1 r2
      rw [gA] at r1; cases r1
      rw [gB] at r2; cases r2
      rw [hbond, hA, hB]
      have e1 : (List.take 2 [n, i, m]).prod = n * i := by simp
      have e2 : (List.drop 1 [m, j, n']).prod = j * n' := by simp
      rw [e1, e2]
      exact ⟨c11, c10⟩
    · refine ⟨by nlinarith, by nlinarith, ?_⟩
      rw [hov A' B' φ k q2 q3 c2 q4, ← inner_conj_symm, c7, RCLike.conj_ofReal, RCLike.norm_ofReal, sq_abs]
      ring
    · rw [hbond]; exact d1
    · intro A'' B'' k' hf hk hnorm
      rw [hbond] at hk
      exact ((hothers A'' B'' k' hf hnorm).1 hk).trans (by linarith)
    · intro A'' B'' k' hf h1 hk hnorm
      rw [hbond] at hk
      exact (hothers A'' B'' k' hf hnorm).2 h1 hk
  refine ⟨E, withPair s o A' B', _, 1 - c ^ 2, hfresh, w1, w2, w3, w4, w5, ?_, hTr, u4, u5, u6, ?_⟩
  · rw [u7, hE θ θ t2 t2]
    rfl
  · intro lo hi hlo hhi
    have hV : ∀ x : Vec 𝕜 [n, i, j, n'], x = toV [n, i, j, n'] (ofV [n, i, j, n'] x) := by
      intro x
      ext o
      show _ = (if h : o.1 ∈ configs [n, i, j, n'] then x ⟨o.1, h⟩ else 0)
      rw [dif_pos o.2]
    have hb := rayleigh_close T hsym lo hi (fun x => by
        rw [hV x, hE _ _ rfl rfl, normV _ rfl]
        exact hlo _) (fun x => by
        rw [hV x, hE _ _ rfl rfl, normV _ rfl]
        exact hhi _) (toV [n, i, j, n'] θ) (toV [n, i, j, n'] φ) t3 c3
    rw [c7, RCLike.ofReal_re, ← u7] at hb
    have : energy Ws (withPair s o A' B') = _ := w6
    rw [this]
    exact hb

end DM
end QuantiT
