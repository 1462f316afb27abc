import Verif.Lemmas.Isometry
import Verif.Lemmas.TwoSite
import Verif.Props.Environment
import Verif.Props.Lanczos
/-
A chain in canonical form around two sites, and the two-site update of DMRG on it (C72, C73).
-/
namespace QuantiT
namespace DM
open Finset Spec MP
variable {R : Type}

/-- A chain that can be cut around two neighbouring sites. -/
theorem linked_split {pre post : List (Blk R)} {A B : Blk R} (h : Linked 3 ((pre ++ A :: B :: post).map Blk.dims)) :
    ∃ n i m j n', A.dims = [n, i, m] ∧ B.dims = [m, j, n'] ∧ (pre ≠ [] → rightEnd pre = n) ∧
      FitTo2 pre pre (leftEnd (pre ++ A :: B :: post), leftEnd (pre ++ A :: B :: post)) (n, n) ∧
      FitTo2 post post (n', n') (rightEnd (pre ++ A :: B :: post), rightEnd (pre ++ A :: B :: post)) := by
  have h1 := fitTo2 h h rfl (by simp)
  generalize hN : (leftEnd (pre ++ A :: B :: post), leftEnd (pre ++ A :: B :: post)) = N at h1 ⊢
  generalize hM : (rightEnd (pre ++ A :: B :: post), rightEnd (pre ++ A :: B :: post)) = M at h1 ⊢
  have hN2 : N.1 = N.2 := by rw [← hN]
  clear hN hM h
  induction pre generalizing N with
  | nil =>
    cases h1 with
    | @cons _ _ _ _ _ _ s n1 p1 a1 a2 h1 =>
    cases h1 with
    | @cons _ _ _ _ _ _ t n2 p2 b1 b2 h1 =>
    have e2 := b1.symm.trans b2
    simp only [List.cons.injEq, and_true, true_and] at e2
    refine ⟨N.1, s, n1, t, n2, a1, b1, fun h => absurd rfl h, ?_, ?_⟩
    · have : N = (N.1, N.1) := by rw [Prod.ext_iff]; exact ⟨rfl, hN2.symm⟩
      rw [this]
      exact .nil _
    · rw [← e2.2] at h1
      exact h1
  | cons C pre ih =>
    cases h1 with
    | @cons _ _ _ _ _ _ s n1 p1 a1 a2 h1 =>
    have e := a1.symm.trans a2
    simp only [List.cons.injEq, and_true, true_and] at e
    obtain ⟨n, i, m, j, n', hA, hB, hp, f1, f2⟩ := ih _ h1 e.2
    refine ⟨n, i, m, j, n', hA, hB, fun _ => ?_, ?_, f2⟩
    · cases pre with
      | nil =>
        cases f1
        simp [rightEnd, a1]
      | cons D pre => rw [rightEnd_cons]; exact hp (by simp)
    · exact .cons a1 a2 f1

/-- **C72.** In a chain whose sites left of a pair are left-orthonormal and whose sites right of it are right-orthonormal,
the inner product of two states that differ in the pair is the inner product of their two-site tensors. -/
theorem C72_isometry [CommSemiring R] [StarRing R] (pre post : List (Blk R)) (A B θ φ : Blk R)
    (h : Linked 3 ((pre ++ A :: B :: post).map Blk.dims)) (hl : ∀ X ∈ pre, LeftOrth X) (hr : ∀ X ∈ post, RightOrth X)
    (hθ : θ.dims = [A.dims.getD 0 0, A.dims.getD 1 0, B.dims.getD 1 0, B.dims.getD 2 0]) (hφ : φ.dims = θ.dims) :
    ∑ l ∈ range (leftEnd (pre ++ A :: B :: post)), ∑ r ∈ range (rightEnd (pre ++ A :: B :: post)),
        ∑ σ ∈ configs (phys (pre ++ A :: B :: post)), pairAmp pre θ post σ l r * star (pairAmp pre φ post σ l r)
      = ∑ o ∈ configs θ.dims, θ.f o * star (φ.f o) := by
  obtain ⟨n, i, m, j, n', hA, hB, _, f1, f2⟩ := linked_split h
  rw [hA, hB] at hθ
  simp only [List.getD_cons_zero, List.getD_cons_succ] at hθ
  have hp : phys (pre ++ A :: B :: post) = phys pre ++ i :: j :: phys post := by simp [phys, hA, hB]
  rw [hp]
  exact pair_isometry pre post θ φ n i j n' _ _ hθ (hφ.trans hθ) f1 f2 hl hr

variable {𝕜 : Type} [RCLike 𝕜]

/-- Everything about one pair of sites of a closed chain. -/
theorem pair_setup (pre post preW postW : List (Blk 𝕜)) (A B W1 W2 : Blk 𝕜)
    (h : Fit (pre ++ A :: B :: post) (preW ++ W1 :: W2 :: postW) (pre ++ A :: B :: post)) (hl : preW.length = pre.length)
    (hc : Closed (pre ++ A :: B :: post)) (hcW : Closed (preW ++ W1 :: W2 :: postW))
    (hL : ∀ X ∈ pre, LeftOrth X) (hR : ∀ X ∈ post, RightOrth X) :
    ∃ Le Re H2 n i m j n', ∃ T : Vec 𝕜 [n, i, j, n'] →ₗ[𝕜] Vec 𝕜 [n, i, j, n'],
      A.dims = [n, i, m] ∧ B.dims = [m, j, n'] ∧ (pre ≠ [] → rightEnd pre = n) ∧ (pre = [] → 0 < n) ∧
      leftEnvs star pre preW (onesLike [1, 1, 1]) = .ok Le ∧ rightEnvs star post postW (onesLike [1, 1, 1]) = .ok Re ∧
      twoSite W1 W2 = .ok H2 ∧
      (∀ θ : Blk 𝕜, θ.dims = [n, i, j, n'] → ∃ θ', hamil2site θ H2 Le Re = .ok θ' ∧ θ'.dims = [n, i, j, n'] ∧
        toV [n, i, j, n'] θ' = T (toV [n, i, j, n'] θ)) ∧
      (∀ θ φ : Blk 𝕜, θ.dims = [n, i, j, n'] → φ.dims = [n, i, j, n'] →
        inner 𝕜 (toV [n, i, j, n'] φ) (T (toV [n, i, j, n'] θ)) = pairSandwich pre θ φ post (preW ++ W1 :: W2 :: postW)
          (phys (pre ++ A :: B :: post)) 0 0 0 0 0 0) ∧
      (∀ θ φ : Blk 𝕜, θ.dims = [n, i, j, n'] → φ.dims = [n, i, j, n'] →
        inner 𝕜 (toV [n, i, j, n'] φ) (toV [n, i, j, n'] θ) = ∑ σ ∈ configs (phys (pre ++ A :: B :: post)),
          pairAmp pre θ post σ 0 0 * star (pairAmp pre φ post σ 0 0)) := by
  obtain ⟨Le, Re, H2, w, w', h1, h2, h3, d1, d2, d3, h4⟩ := effective_setup pre post preW postW A B W1 W2 (onesLike [1, 1, 1])
    (onesLike [1, 1, 1]) h hl (by rw [hc.1, hcW.1]; rfl) (by rw [hc.2, hcW.2]; rfl)
  obtain ⟨n, i, m, j, n', hA, hB, hp, _, _⟩ := linked_split h.ket
  simp only [hA, hB, List.getD_cons_zero, List.getD_cons_succ] at d1 d2 d3 h4
  obtain ⟨T, hT⟩ := heff_exists d1 d2 d3
  refine ⟨Le, Re, H2, n, i, m, j, n', T, hA, hB, hp, ?_, h1, h2, h3, hT, ?_, ?_⟩
  · rintro rfl
    have := hc.1
    simp [leftEnd, hA] at this
    omega
  · intro θ φ hθ hφ
    obtain ⟨θ', g1, g2, g3⟩ := h4 θ φ hθ (hφ.trans hθ.symm)
    obtain ⟨θ'', k1, k2, k3⟩ := hT θ hθ
    have : θ' = θ'' := Except.ok.inj (g1.symm.trans k1)
    subst this
    rw [← k3, inner_toV, ← hθ, g3]
    simp [onesLike]
  · intro θ φ hθ hφ
    have := C72_isometry pre post A B θ φ h.ket hL hR (by rw [hθ, hA, hB]; rfl) (hφ.trans hθ.symm)
    rw [hc.1, hc.2, hθ] at this
    rw [inner_toV, ← this]
    simp

theorem pairSandwich_herm (pre post Ws : List (Blk 𝕜)) (θ φ : Blk 𝕜) (ds : List Nat) (h : HermitianOp Ws ds) :
    pairSandwich pre θ φ post Ws ds 0 0 0 0 0 0 = star (pairSandwich pre φ θ post Ws ds 0 0 0 0 0 0) := by
  unfold pairSandwich
  rw [star_sum, sum_comm]
  refine sum_congr rfl fun τ hτ => ?_
  rw [star_sum]
  refine sum_congr rfl fun σ hσ => ?_
  rw [star_mul', star_mul', star_star, h τ hτ σ hσ]
  ring

theorem re_pair_norm (pre post : List (Blk 𝕜)) (θ : Blk 𝕜) (S : Finset (List Nat)) :
    ∑ σ ∈ S, pairAmp pre θ post σ 0 0 * star (pairAmp pre θ post σ 0 0) = ((∑ σ ∈ S, ‖pairAmp pre θ post σ 0 0‖ ^ 2 : ℝ) : 𝕜) := by
  push_cast
  refine sum_congr rfl fun σ _ => ?_
  exact RCLike.mul_conj _

/-- **C72.** Variational bound: on a chain in canonical form around a pair of sites, the energy that the two-site Hamiltonian
gives any two-site tensor of norm one is never below the spectrum of the whole Hamiltonian. -/
theorem C72_bound (pre post preW postW : List (Blk 𝕜)) (A B W1 W2 θ : Blk 𝕜)
    (h : Fit (pre ++ A :: B :: post) (preW ++ W1 :: W2 :: postW) (pre ++ A :: B :: post)) (hl : preW.length = pre.length)
    (hc : Closed (pre ++ A :: B :: post)) (hcW : Closed (preW ++ W1 :: W2 :: postW))
    (hL : ∀ X ∈ pre, LeftOrth X) (hR : ∀ X ∈ post, RightOrth X)
    (hθ : θ.dims = [A.dims.getD 0 0, A.dims.getD 1 0, B.dims.getD 1 0, B.dims.getD 2 0]) (lo : ℝ)
    (hlo : BoundedBelow (preW ++ W1 :: W2 :: postW) (phys (pre ++ A :: B :: post)) lo) :
    ∃ Le Re H2 θ' e, leftEnvs star pre preW (onesLike [1, 1, 1]) = .ok Le ∧ rightEnvs star post postW (onesLike [1, 1, 1]) = .ok Re ∧
      twoSite W1 W2 = .ok H2 ∧ hamil2site θ H2 Le Re = .ok θ' ∧ dot4 θ' (conjBlk star θ) = .ok e ∧
      lo * ∑ o ∈ configs θ.dims, ‖θ.f o‖ ^ 2 ≤ e := by
  obtain ⟨Le, Re, H2, n, i, m, j, n', T, hA, hB, _, _, h1, h2, h3, hT, hE, hN⟩ :=
    pair_setup pre post preW postW A B W1 W2 h hl hc hcW hL hR
  simp only [hA, hB, List.getD_cons_zero, List.getD_cons_succ] at hθ
  obtain ⟨θ', k1, k2, k3⟩ := hT θ hθ
  refine ⟨Le, Re, H2, θ', _, h1, h2, h3, k1, dot4_inner rfl k2 hθ, ?_⟩
  rw [k3, hE θ θ hθ hθ]
  have hb := hlo fun σ => pairAmp pre θ post σ 0 0
  have hn := hN θ θ hθ hθ
  rw [re_pair_norm, inner_self_eq_norm_sq_to_K] at hn
  have hn' : ‖toV [n, i, j, n'] θ‖ ^ 2 = ∑ σ ∈ configs (phys (pre ++ A :: B :: post)), ‖pairAmp pre θ post σ 0 0‖ ^ 2 := by
    exact_mod_cast hn
  rw [hθ, ← norm_toV, hn']
  exact hb

/-! ### The new sites -/

theorem svd_norm {X u d v : Blk 𝕜} {l s t r k : Nat} (h : SvdPair X u d v l s t r k) :
    ∑ o ∈ configs [l, s, t, r], X.f o * star (X.f o) = ∑ m ∈ range k, d.f [m] * star (d.f [m]) := by
  simp only [sum_configs_cons', sum_configs_nil]
  have e : ∀ i ∈ range l, ∀ c ∈ range s, ∀ c' ∈ range t, ∀ j ∈ range r, X.f [i, c, c', j] * star (X.f [i, c, c', j])
      = ∑ m ∈ range k, ∑ m' ∈ range k, (star (u.f [i, c, m']) * u.f [i, c, m]) * (d.f [m] * star (d.f [m']))
        * (star (v.f [c', j, m]) * v.f [c', j, m']) := by
    intro i hi c hc c' hc' j hj
    rw [h.prod i c c' j (mem_range.1 hi) (mem_range.1 hc) (mem_range.1 hc') (mem_range.1 hj), star_sum, sum_mul_sum]
    refine sum_congr rfl fun m _ => sum_congr rfl fun m' _ => ?_
    rw [star_mul', star_mul', star_star]
    ring
  rw [sum_congr rfl fun i hi => sum_congr rfl fun c hc => sum_congr rfl fun c' hc' => sum_congr rfl fun j hj => e i hi c hc c' hc' j hj]
  have e2 : ∑ i ∈ range l, ∑ c ∈ range s, ∑ c' ∈ range t, ∑ j ∈ range r, ∑ m ∈ range k, ∑ m' ∈ range k,
      (star (u.f [i, c, m']) * u.f [i, c, m]) * (d.f [m] * star (d.f [m'])) * (star (v.f [c', j, m]) * v.f [c', j, m'])
      = ∑ m ∈ range k, ∑ m' ∈ range k, (∑ i ∈ range l, ∑ c ∈ range s, star (u.f [i, c, m']) * u.f [i, c, m])
        * (d.f [m] * star (d.f [m'])) * ∑ c' ∈ range t, ∑ j ∈ range r, star (v.f [c', j, m]) * v.f [c', j, m'] := by
    simp only [sum_mul, mul_sum]
    simp only [sum_sigma']
    refine sum_nbij' (fun ⟨i, c, c', j, m, m'⟩ => ⟨m, m', c', j, i, c⟩) (fun ⟨m, m', c', j, i, c⟩ => ⟨i, c, c', j, m, m'⟩) ?_ ?_ ?_ ?_ ?_
    · rintro ⟨i, c, c', j, m, m'⟩ hq
      simp only [mem_sigma, mem_range] at hq ⊢
      tauto
    · rintro ⟨m, m', c', j, i, c⟩ hq
      simp only [mem_sigma, mem_range] at hq ⊢
      tauto
    · rintro ⟨i, c, c', j, m, m'⟩ _; rfl
    · rintro ⟨m, m', c', j, i, c⟩ _; rfl
    · rintro ⟨i, c, c', j, m, m'⟩ _
      ring
  rw [e2]
  refine sum_congr rfl fun m hm => ?_
  rw [sum_eq_single m]
  · rw [h.uorth m m (mem_range.1 hm) (mem_range.1 hm), h.vorth m m (mem_range.1 hm) (mem_range.1 hm), if_pos rfl, one_mul, mul_one]
  · intro m' hm' hne
    rw [h.uorth m' m (mem_range.1 hm') (mem_range.1 hm), if_neg hne, zero_mul, zero_mul]
  · intro hh; exact absurd hm hh

theorem unitSum_id {X u d v : Blk 𝕜} {l s t r k : Nat} (h : SvdPair X u d v l s t r k)
    (hX : ‖toV [l, s, t, r] X‖ = 1) (m : Nat) : (unitSum d).f [m] = d.f [m] := by
  have h1 := svd_norm h
  rw [← inner_toV, inner_self_eq_norm_sq_to_K, hX] at h1
  have h2 : ∑ o ∈ configs d.dims, RCLike.re (d.f o) ^ 2 = 1 := by
    rw [h.ddims]
    simp only [sum_configs_cons', sum_configs_nil]
    have : ((1 : ℝ) : 𝕜) = ((∑ m ∈ range k, RCLike.re (d.f [m]) ^ 2 : ℝ) : 𝕜) := by
      have h1' : (1 : 𝕜) = ∑ m ∈ range k, d.f [m] * star (d.f [m]) := by
        rw [← h1]; norm_num
      push_cast
      rw [h1']
      refine sum_congr rfl fun m hm => ?_
      have hr := h.real m (mem_range.1 hm)
      have : ((RCLike.re (d.f [m]) : ℝ) : 𝕜) = d.f [m] := RCLike.conj_eq_iff_re.1 hr
      rw [hr, sq]
      exact congrArg₂ (· * ·) this.symm this.symm
    exact_mod_cast this.symm
  simp [unitSum, divBy, h2]

/-- The two sites made from the SVD of a two-site tensor of norm one multiply to that tensor. -/
theorem new_sites {X u d v : Blk 𝕜} {l s t r k : Nat} (h : SvdPair X u d v l s t r k) (hX : ‖toV [l, s, t, r] X‖ = 1) (fwd : Bool) :
    ∃ A' B', (if fwd then (do
        let vd ← mulLast v (unitSum d)
        let nx ← BT.permBlk [2, 0, 1] (conjBlk star vd)
        .ok (u, nx) : Res (Blk 𝕜 × Blk 𝕜))
      else do
        let ud ← mulLast u (unitSum d)
        let nx ← BT.permBlk [2, 0, 1] (conjBlk star v)
        .ok (ud, nx)) = .ok (A', B') ∧ A'.dims = [l, s, k] ∧ B'.dims = [k, t, r] ∧
      (∀ x c c' y, x < l → c < s → c' < t → y < r → X.f [x, c, c', y] = ∑ m ∈ range k, A'.f [x, c, m] * B'.f [m, c', y]) ∧
      (fwd = true → LeftOrth A') ∧ (fwd = false → RightOrth B') := by
  have hu := unitSum_id h hX
  have hd : (unitSum d).dims = [k] := h.ddims
  cases fwd with
  | true =>
    have e1 : mulLast v (unitSum d) = .ok ⟨[t, r, k], fun x => v.f x * (unitSum d).f [x.getLastD 0]⟩ := by
      unfold mulLast
      rw [if_pos (by simp [hd, h.vdims]), h.vdims]
    let nx : Blk 𝕜 := ⟨[k, t, r], fun x => star (v.f (BT.ungather [2, 0, 1] x) * (unitSum d).f [(BT.ungather [2, 0, 1] x).getLastD 0])⟩
    have e2 : BT.permBlk [2, 0, 1] (conjBlk star (⟨[t, r, k], fun x => v.f x * (unitSum d).f [x.getLastD 0]⟩ : Blk 𝕜)) = .ok nx := rfl
    have e3 : ∀ m c y, nx.f [m, c, y] = star (v.f [c, y, m] * (unitSum d).f [m]) := fun _ _ _ => rfl
    refine ⟨u, nx, ?_, h.udims, rfl, ?_, fun _ => ?_, fun h => by cases h⟩
    · rw [e1]
      simp only [bind, Except.bind, e2, if_true]
    · intro x c c' y hx hc hc' hy
      rw [h.prod x c c' y hx hc hc' hy]
      refine sum_congr rfl fun m hm => ?_
      rw [e3, hu, star_mul', h.real m (mem_range.1 hm)]
      ring
    · intro a b ha hb
      rw [h.udims] at ha hb ⊢
      exact h.uorth a b ha hb
  | false =>
    have e1 : mulLast u (unitSum d) = .ok ⟨[l, s, k], fun x => u.f x * (unitSum d).f [x.getLastD 0]⟩ := by
      unfold mulLast
      rw [if_pos (by simp [hd, h.udims]), h.udims]
    let cu : Blk 𝕜 := ⟨[k, t, r], fun x => star (v.f (BT.ungather [2, 0, 1] x))⟩
    have e2 : BT.permBlk [2, 0, 1] (conjBlk star v) = .ok cu := by
      unfold BT.permBlk conjBlk
      rw [h.vdims]
      rfl
    have e : ∀ y c j, cu.f [y, c, j] = star (v.f [c, j, y]) := fun _ _ _ => rfl
    refine ⟨⟨[l, s, k], fun x => u.f x * (unitSum d).f [x.getLastD 0]⟩, cu, ?_, rfl, rfl, ?_, (fun h => by cases h), fun _ => ?_⟩
    · rw [e1]
      simp only [bind, Except.bind, e2, Bool.false_eq_true, if_false]
    · intro x c c' y hx hc hc' hy
      rw [h.prod x c c' y hx hc hc' hy]
      refine sum_congr rfl fun m hm => ?_
      rw [e]
      show _ = u.f [x, c, m] * (unitSum d).f [m] * star (v.f [c', y, m])
      rw [hu]
    · intro a b ha hb
      rw [← h.vorth a b ha hb]
      apply Finset.sum_congr rfl; intro c _
      apply Finset.sum_congr rfl; intro j _
      rw [e, e, star_star]

/-- Norm and energy of a closed chain are those of its two-site tensor. -/
theorem chain_of_pair {pre post Ws : List (Blk 𝕜)} {A B θ : Blk 𝕜} {n i m j n' : Nat} (hA : A.dims = [n, i, m]) (hB : B.dims = [m, j, n'])
    (hθ : θ.dims = [n, i, j, n'])
    (hθf : ∀ x s t y, x < n → s < i → t < j → y < n' → θ.f [x, s, t, y] = ∑ k ∈ range m, A.f [x, s, k] * B.f [k, t, y])
    (hpre : pre ≠ [] → rightEnd pre = n) (hn : pre = [] → 0 < n) :
    normSq (pre ++ A :: B :: post) = ∑ σ ∈ configs (phys (pre ++ A :: B :: post)), ‖pairAmp pre θ post σ 0 0‖ ^ 2 ∧
    energy Ws (pre ++ A :: B :: post)
      = RCLike.re (pairSandwich pre θ θ post Ws (phys (pre ++ A :: B :: post)) 0 0 0 0 0 0) := by
  have h := fun σ hσ => pairAmp_prod pre post A B θ n i m j n' hA hB hθ hθf hpre σ hσ 0 0 hn
  constructor
  · unfold normSq
    refine sum_congr rfl fun σ hσ => ?_
    rw [h σ hσ]
  · unfold energy sandwich pairSandwich
    congr 1
    refine sum_congr rfl fun σ hσ => sum_congr rfl fun τ hτ => ?_
    rw [h σ hσ, h τ hτ]

end DM
end QuantiT
