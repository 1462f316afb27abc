import Verif.Lemmas.Network4
/-
A chain in canonical form around a pair of sites is an isometry of the two-site tensor.
-/
namespace QuantiT
namespace MP
open Finset Spec
variable {R : Type} [CommSemiring R] [StarRing R]

theorem gram_left {a b : List (Blk R)} {N M : Nat × Nat} (h : FitTo2 a b N M) (hab : a = b) (hN : N.1 = N.2) (hM : M.1 = M.2)
    (ho : ∀ A ∈ a, LeftOrth A) (k k' : Nat) (hk : k < M.1) (hk' : k' < M.1) :
    ∑ l ∈ range N.1, overlap a a l l k k' = if k = k' then 1 else 0 := by
  induction h with
  | nil N =>
    simp only [overlap_nil]
    rw [sum_eq_single k]
    · by_cases hkk : k = k' <;> simp [hkk]
    · intro l _ hl; simp [hl]
    · intro h; exact absurd (mem_range.2 hk) h
  | @cons A B a b N M s n' p' hA hB hf ih =>
    simp only [List.cons.injEq] at hab
    obtain ⟨rfl, rfl⟩ := hab
    rw [hA] at hB
    simp only [List.cons.injEq, and_true, true_and] at hB
    have hnp : n' = p' := hB.2
    have ih := ih rfl hnp hM (fun A hA => ho A (List.mem_cons_of_mem _ hA)) hk hk'
    have hoA := ho A (by simp)
    simp only [overlap_cons, hA, List.getD_cons_zero, List.getD_cons_succ]
    simp only [LeftOrth, hA, List.getD_cons_zero, List.getD_cons_succ] at hoA
    rw [← ih, sum_comm]
    refine sum_congr rfl fun j hj => ?_
    rw [sum_comm, sum_eq_single j]
    · rw [← sum_mul, sum_congr rfl fun l _ => sum_congr rfl fun i _ => mul_comm _ _,
        hoA j j (mem_range.1 hj) (mem_range.1 hj), if_pos rfl, one_mul]
    · intro j' hj' hne
      rw [← sum_mul, sum_congr rfl fun l _ => sum_congr rfl fun i _ => mul_comm _ _,
        hoA j' j (mem_range.1 hj') (mem_range.1 hj), if_neg hne, zero_mul]
    · intro h; exact absurd hj h

theorem gram_right {a b : List (Blk R)} {N M : Nat × Nat} (h : FitTo2 a b N M) (hab : a = b) (hN : N.1 = N.2) (hM : M.1 = M.2)
    (ho : ∀ A ∈ a, RightOrth A) (k k' : Nat) (hk : k < N.1) (hk' : k' < N.1) :
    ∑ r ∈ range M.1, overlap a a k k' r r = if k = k' then 1 else 0 := by
  induction h generalizing k k' with
  | nil N =>
    simp only [overlap_nil]
    rw [sum_eq_single k]
    · by_cases hkk : k = k'
      · simp [hkk]
      · simp [hkk, Ne.symm hkk]
    · intro l _ hl; simp [Ne.symm hl]
    · intro h; exact absurd (mem_range.2 hk) h
  | @cons A B a b N M s n' p' hA hB hf ih =>
    simp only [List.cons.injEq] at hab
    obtain ⟨rfl, rfl⟩ := hab
    rw [hA] at hB
    simp only [List.cons.injEq, and_true, true_and] at hB
    have hnp : n' = p' := hB.2
    have hoA := ho A (by simp)
    simp only [RightOrth, hA, List.getD_cons_zero, List.getD_cons_succ] at hoA
    simp only [overlap_cons, hA, List.getD_cons_zero, List.getD_cons_succ]
    rw [sum_comm, ← hoA k k' hk hk', sum_comm (s := range s)]
    refine sum_congr rfl fun j hj => ?_
    rw [sum_comm, sum_eq_single j]
    · rw [← mul_sum, ih rfl hnp hM (fun A hA => ho A (List.mem_cons_of_mem _ hA)) j j (mem_range.1 hj) (mem_range.1 hj), if_pos rfl,
        mul_one]
    · intro j' hj' hne
      rw [← mul_sum, ih rfl hnp hM (fun A hA => ho A (List.mem_cons_of_mem _ hA)) j j' (mem_range.1 hj) (mem_range.1 hj'),
        if_neg (Ne.symm hne), mul_zero]
    · intro h; exact absurd hj h

omit [StarRing R] in
theorem pairAmp_split (pre post : List (Blk R)) (ψ : Blk R) (n i j n' : Nat) (ρ : List Nat) (r1 r2 : Nat) (ρ' : List Nat) (l r : Nat)
    (hψ : ψ.dims = [n, i, j, n']) (hρ : ρ.length = pre.length) :
    pairAmp pre ψ post (ρ ++ r1 :: r2 :: ρ') l r
      = ∑ k ∈ range n, ∑ k' ∈ range n', amp pre ρ l k * (ψ.f [k, r1, r2, k'] * amp post ρ' k' r) := by
  unfold pairAmp
  rw [hψ, ← hρ]
  simp only [List.take_left']
  refine sum_congr rfl fun k _ => sum_congr rfl fun k' _ => ?_
  rw [mul_assoc]
  have d : (ρ ++ r1 :: r2 :: ρ').drop (ρ.length + 2) = ρ' := by
    rw [← List.drop_drop]; simp
  have g1 : (ρ ++ r1 :: r2 :: ρ').getD ρ.length 0 = r1 := by simp [List.getD]
  have g2 : (ρ ++ r1 :: r2 :: ρ').getD (ρ.length + 1) 0 = r2 := by simp [List.getD]
  rw [d, g1, g2]

theorem pairOverlap (pre post : List (Blk R)) (θ φ : Blk R) (n i j n' l l' r r' : Nat)
    (hθ : θ.dims = [n, i, j, n']) (hφ : φ.dims = [n, i, j, n']) :
    ∑ σ ∈ configs (phys pre ++ i :: j :: phys post), pairAmp pre θ post σ l r * star (pairAmp pre φ post σ l' r')
      = ∑ k ∈ range n, ∑ x ∈ range n, ∑ k' ∈ range n', ∑ x' ∈ range n', overlap pre pre l l' k x *
        (∑ s ∈ range i, ∑ t ∈ range j, θ.f [k, s, t, k'] * star (φ.f [x, s, t, x'])) * overlap post post k' x' r r' := by
  rw [sum_configs_pair]
  have e : ∀ p ∈ configs (phys pre) ×ˢ ((range i ×ˢ range j) ×ˢ configs (phys post)),
      pairAmp pre θ post (p.1 ++ p.2.1.1 :: p.2.1.2 :: p.2.2) l r
        * star (pairAmp pre φ post (p.1 ++ p.2.1.1 :: p.2.1.2 :: p.2.2) l' r')
      = ∑ k ∈ range n, ∑ x ∈ range n, ∑ k' ∈ range n', ∑ x' ∈ range n', (amp pre p.1 l k * star (amp pre p.1 l' x))
        * (θ.f [k, p.2.1.1, p.2.1.2, k'] * star (φ.f [x, p.2.1.1, p.2.1.2, x']))
        * (amp post p.2.2 k' r * star (amp post p.2.2 x' r')) := by
    intro p hp
    rw [Finset.mem_product] at hp
    have hl : p.1.length = pre.length := by rw [(mem_configs.1 hp.1).length_eq]; simp [phys]
    rw [pairAmp_split pre post θ n i j n' _ _ _ _ _ _ hθ hl, pairAmp_split pre post φ n i j n' _ _ _ _ _ _ hφ hl, star_sum,
      sum_mul_sum]
    refine sum_congr rfl fun k _ => sum_congr rfl fun x _ => ?_
    rw [star_sum, sum_mul_sum]
    refine sum_congr rfl fun k' _ => sum_congr rfl fun x' _ => ?_
    rw [star_mul', star_mul']
    ring
  rw [sum_congr rfl e]
  simp only [sum_product, overlap, sum_mul, mul_sum]
  simp only [sum_sigma']
  refine sum_nbij' (fun ⟨σ, s, t, σ', k, x, k', x'⟩ => ⟨k, x, k', x', σ', s, t, σ⟩)
    (fun ⟨k, x, k', x', σ', s, t, σ⟩ => ⟨σ, s, t, σ', k, x, k', x'⟩) ?_ ?_ ?_ ?_ ?_
  · rintro ⟨σ, s, t, σ', k, x, k', x'⟩ hq
    simp only [mem_sigma, mem_range] at hq ⊢
    tauto
  · rintro ⟨k, x, k', x', σ', s, t, σ⟩ hq
    simp only [mem_sigma, mem_range] at hq ⊢
    tauto
  · rintro ⟨σ, s, t, σ', k, x, k', x'⟩ _; rfl
  · rintro ⟨k, x, k', x', σ', s, t, σ⟩ _; rfl
  · rintro ⟨σ, s, t, σ', k, x, k', x'⟩ _
    simp only

/-- In canonical form the inner product of two states that differ in two sites is that of their two-site tensors. -/
theorem pair_isometry (pre post : List (Blk R)) (θ φ : Blk R) (n i j n' nl nr : Nat)
    (hθ : θ.dims = [n, i, j, n']) (hφ : φ.dims = [n, i, j, n'])
    (hpre : FitTo2 pre pre (nl, nl) (n, n)) (hpost : FitTo2 post post (n', n') (nr, nr))
    (hl : ∀ A ∈ pre, LeftOrth A) (hr : ∀ A ∈ post, RightOrth A) :
    ∑ l ∈ range nl, ∑ r ∈ range nr, ∑ σ ∈ configs (phys pre ++ i :: j :: phys post),
        pairAmp pre θ post σ l r * star (pairAmp pre φ post σ l r)
      = ∑ o ∈ configs θ.dims, θ.f o * star (φ.f o) := by
  have h1 := fun k x hk hx => gram_left hpre rfl rfl rfl hl k x hk hx
  have h2 := fun k x hk hx => gram_right hpost rfl rfl rfl hr k x hk hx
  simp only at h1 h2
  have e : ∑ l ∈ range nl, ∑ r ∈ range nr, ∑ σ ∈ configs (phys pre ++ i :: j :: phys post),
        pairAmp pre θ post σ l r * star (pairAmp pre φ post σ l r)
      = ∑ k ∈ range n, ∑ x ∈ range n, ∑ k' ∈ range n', ∑ x' ∈ range n', (∑ l ∈ range nl, overlap pre pre l l k x) *
        (∑ s ∈ range i, ∑ t ∈ range j, θ.f [k, s, t, k'] * star (φ.f [x, s, t, x'])) * (∑ r ∈ range nr, overlap post post k' x' r r) := by
    simp only [pairOverlap pre post θ φ n i j n' _ _ _ _ hθ hφ]
    generalize hF : (fun k k' x x' => ∑ s ∈ range i, ∑ t ∈ range j, θ.f [k, s, t, k'] * star (φ.f [x, s, t, x'])) = F
    have hF' : ∀ k k' x x', ∑ s ∈ range i, ∑ t ∈ range j, θ.f [k, s, t, k'] * star (φ.f [x, s, t, x']) = F k k' x x' := by
      intro k k' x x'; rw [← hF]
    simp only [hF', sum_mul, mul_sum]
    simp only [sum_sigma']
    refine sum_nbij' (fun ⟨l, r, k, x, k', x'⟩ => ⟨k, x, k', x', r, l⟩) (fun ⟨k, x, k', x', r, l⟩ => ⟨l, r, k, x, k', x'⟩) ?_ ?_ ?_ ?_ ?_
    · rintro ⟨l, r, k, x, k', x'⟩ hq
      simp only [mem_sigma, mem_range] at hq ⊢
      tauto
    · rintro ⟨k, x, k', x', r, l⟩ hq
      simp only [mem_sigma, mem_range] at hq ⊢
      tauto
    · rintro ⟨l, r, k, x, k', x'⟩ _; rfl
    · rintro ⟨k, x, k', x', r, l⟩ _; rfl
    · rintro ⟨l, r, k, x, k', x'⟩ _; rfl
  rw [e, hθ]
  simp only [sum_configs_cons', sum_configs_nil]
  refine sum_congr rfl fun k hk => ?_
  rw [sum_eq_single k]
  · have : ∀ k' ∈ range n', ∑ x' ∈ range n', (∑ l ∈ range nl, overlap pre pre l l k k) *
        (∑ s ∈ range i, ∑ t ∈ range j, θ.f [k, s, t, k'] * star (φ.f [k, s, t, x'])) * (∑ r ∈ range nr, overlap post post k' x' r r)
        = ∑ s ∈ range i, ∑ t ∈ range j, θ.f [k, s, t, k'] * star (φ.f [k, s, t, k']) := by
      intro k' hk'
      rw [sum_eq_single k', h1 k k (mem_range.1 hk) (mem_range.1 hk), h2 k' k' (mem_range.1 hk') (mem_range.1 hk'), if_pos rfl,
        if_pos rfl, one_mul, mul_one]
      · intro x' hx' hne
        rw [h2 k' x' (mem_range.1 hk') (mem_range.1 hx'), if_neg (Ne.symm hne), mul_zero]
      · intro h; exact absurd hk' h
    rw [sum_congr rfl this, sum_comm]
    refine sum_congr rfl fun s _ => ?_
    rw [sum_comm]
  · intro x hx hne
    refine sum_eq_zero fun k' _ => sum_eq_zero fun x' _ => ?_
    rw [h1 k x (mem_range.1 hk) (mem_range.1 hx), if_neg (Ne.symm hne), zero_mul, zero_mul]
  · intro h; exact absurd hk h

end MP
end QuantiT
