import Verif.Spec.SemiCanonical
import Verif.Props.Update
/-
Chains that are canonical around a pair of sites apart from unused elements of the bonds.
-/
namespace QuantiT
namespace DM
open Finset Spec MP
variable {𝕜 : Type} [RCLike 𝕜]

/-- The last site of `a` is zero at the element `k` of its right bond. -/
def ZeroLast (a : List (Blk 𝕜)) (k : Nat) : Prop := ∃ A, a.getLast? = some A ∧ ZeroCol A k

/-- The first site of `a` is zero at the element `k` of its left bond. -/
def ZeroHead (a : List (Blk 𝕜)) (k : Nat) : Prop := ∃ A, a.head? = some A ∧ ZeroRow A k

def SkipLeft (a : List (Blk 𝕜)) : Prop :=
  ∀ (i : Nat) A B, a[i]? = some A → a[i + 1]? = some B → ∀ k, k < A.dims.getD 2 0 → ZeroCol A k → ZeroRow B k

def SkipRight (a : List (Blk 𝕜)) : Prop :=
  ∀ (i : Nat) A B, a[i]? = some A → a[i + 1]? = some B → ∀ k, k < B.dims.getD 0 0 → ZeroRow B k → ZeroCol A k

theorem overlap_zeroRow (B : Blk 𝕜) (a : List (Blk 𝕜)) (j j' k k' : Nat) (h : ZeroRow B j) : overlap (B :: a) (B :: a) j j' k k' = 0 := by
  rw [overlap_cons]
  refine sum_eq_zero fun x hx => sum_eq_zero fun y hy => ?_
  rw [sum_eq_zero fun s hs => ?_, zero_mul]
  rw [h s x (mem_range.1 hs) (mem_range.1 hx), zero_mul]

theorem SkipLeft.tail {A : Blk 𝕜} {a : List (Blk 𝕜)} (h : SkipLeft (A :: a)) : SkipLeft a :=
  fun i X Y hX hY => h (i + 1) X Y (by simpa using hX) (by simpa using hY)

theorem SkipRight.tail {A : Blk 𝕜} {a : List (Blk 𝕜)} (h : SkipRight (A :: a)) : SkipRight a :=
  fun i X Y hX hY => h (i + 1) X Y (by simpa using hX) (by simpa using hY)

theorem gram_left_semi {a b : List (Blk 𝕜)} {N M : Nat × Nat} (h : FitTo2 a b N M) (hab : a = b) (hN : N.1 = N.2) (hM : M.1 = M.2)
    (ho : ∀ A ∈ a, LeftSemi A) (hs : SkipLeft a) (k k' : Nat) (hk : k < M.1) (hk' : k' < M.1) :
    (k ≠ k' → ∑ l ∈ range N.1, overlap a a l l k k' = 0) ∧ (k = k' → ¬ ZeroLast a k → ∑ l ∈ range N.1, overlap a a l l k k' = 1) := by
  induction h with
  | nil N =>
    simp only [overlap_nil]
    constructor
    · intro hkk
      refine sum_eq_zero fun l _ => ?_
      by_cases h1 : l = k
      · subst h1; simp [hkk]
      · simp [h1]
    · rintro rfl _
      rw [sum_eq_single k]
      · simp
      · intro l _ hl; simp [hl]
      · intro h; exact absurd (mem_range.2 hk) h
  | @cons A B a b N M s n' p' hA hB hf ih =>
    simp only [List.cons.injEq] at hab
    obtain ⟨rfl, rfl⟩ := hab
    rw [hA] at hB
    simp only [List.cons.injEq, and_true, true_and] at hB
    have hnp : n' = p' := hB.2
    have ih := ih rfl hnp hM (fun A hA => ho A (List.mem_cons_of_mem _ hA)) hs.tail hk hk'
    have hoA := ho A (by simp)
    have o1 := hoA.orth
    have o2 := hoA.norm
    simp only [hA, List.getD_cons_zero, List.getD_cons_succ] at o1 o2
    have key : ∑ l ∈ range N.1, overlap (A :: a) (A :: a) l l k k' = ∑ j ∈ range n',
        (∑ l ∈ range N.1, ∑ i ∈ range s, star (A.f [l, i, j]) * A.f [l, i, j]) * overlap a a j j k k' := by
      simp only [overlap_cons, hA, List.getD_cons_zero, List.getD_cons_succ]
      rw [sum_comm]
      refine sum_congr rfl fun j hj => ?_
      rw [sum_comm, sum_eq_single j]
      · rw [← sum_mul, sum_congr rfl fun l _ => sum_congr rfl fun i _ => mul_comm _ _]
      · intro j' hj' hne
        rw [← sum_mul, sum_congr rfl fun l _ => sum_congr rfl fun i _ => mul_comm _ _,
          o1 j' j (mem_range.1 hj') (mem_range.1 hj) hne, zero_mul]
      · intro h; exact absurd hj h
    rw [key]
    cases a with
    | nil =>
      cases hf
      simp only [overlap_nil]
      constructor
      · intro hkk
        refine sum_eq_zero fun l _ => ?_
        by_cases h1 : l = k
        · subst h1; simp [hkk]
        · simp [h1]
      · rintro rfl hz
        rw [sum_eq_single k]
        · rcases o2 k hk with h | h
          · exact absurd ⟨A, rfl, h⟩ hz
          · rw [h]; simp
        · intro l _ hl; simp [hl]
        · intro h; exact absurd (mem_range.2 hk) h
    | cons C a =>
      have hz : ZeroLast (A :: C :: a) k = ZeroLast (C :: a) k := by
        unfold ZeroLast
        rw [List.getLast?_cons_cons]
      rw [hz]
      have e : ∑ j ∈ range n', (∑ l ∈ range N.1, ∑ i ∈ range s, star (A.f [l, i, j]) * A.f [l, i, j]) * overlap (C :: a) (C :: a) j j k k'
          = ∑ j ∈ range n', overlap (C :: a) (C :: a) j j k k' := by
        refine sum_congr rfl fun j hj => ?_
        rcases o2 j (mem_range.1 hj) with h | h
        · have := hs 0 A C rfl rfl j (by rw [hA]; exact mem_range.1 hj) h
          rw [overlap_zeroRow C a j j k k' this, mul_zero]
        · rw [h, one_mul]
      rw [e]
      exact ih

theorem gram_right_semi {a b : List (Blk 𝕜)} {N M : Nat × Nat} (h : FitTo2 a b N M) (hab : a = b) (hN : N.1 = N.2) (hM : M.1 = M.2)
    (ho : ∀ A ∈ a, RightSemi A) (hs : SkipRight a) (k k' : Nat) (hk : k < N.1) (hk' : k' < N.1) :
    (k ≠ k' → ∑ r ∈ range M.1, overlap a a k k' r r = 0) ∧ (k = k' → ¬ ZeroHead a k → ∑ r ∈ range M.1, overlap a a k k' r r = 1) := by
  induction h generalizing k k' with
  | nil N =>
    simp only [overlap_nil]
    constructor
    · intro hkk
      refine sum_eq_zero fun l _ => ?_
      by_cases h1 : k = l
      · subst h1; simp [Ne.symm hkk]
      · simp [h1]
    · rintro rfl _
      rw [sum_eq_single k]
      · simp
      · intro l _ hl; simp [Ne.symm hl]
      · intro h; exact absurd (mem_range.2 hk) h
  | @cons A B a b N M s n' p' hA hB hf ih =>
    simp only [List.cons.injEq] at hab
    obtain ⟨rfl, rfl⟩ := hab
    rw [hA] at hB
    simp only [List.cons.injEq, and_true, true_and] at hB
    have hnp : n' = p' := hB.2
    have hoA := ho A (by simp)
    have o1 := hoA.orth
    have o2 := hoA.norm
    simp only [hA, List.getD_cons_zero, List.getD_cons_succ] at o1 o2
    have ih := fun j j' hj hj' => ih rfl hnp hM (fun A hA => ho A (List.mem_cons_of_mem _ hA)) hs.tail j j' hj hj'
    have key : ∑ r ∈ range M.1, overlap (A :: a) (A :: a) k k' r r
        = ∑ i ∈ range s, ∑ j ∈ range n', A.f [k, i, j] * star (A.f [k', i, j]) := by
      simp only [overlap_cons, hA, List.getD_cons_zero, List.getD_cons_succ]
      rw [sum_comm, sum_comm (s := range s)]
      refine sum_congr rfl fun j hj => ?_
      rw [sum_comm, sum_eq_single j]
      · rw [← mul_sum]
        by_cases hz : ZeroHead a j
        · obtain ⟨C, hC, hz⟩ := hz
          have hc := hs 0 A C rfl (by rw [← hC]; cases a <;> rfl) j (by
            cases a with
            | nil => cases hC
            | cons C' a =>
              cases hC
              cases hf with
              | cons q _ _ => rw [q]; exact mem_range.1 hj) hz
          have : ∑ i ∈ range s, A.f [k, i, j] * star (A.f [k', i, j]) = 0 := sum_eq_zero fun i hi => by
            rw [hc k i (by rw [hA]; exact hk) (by rw [hA]; exact mem_range.1 hi), zero_mul]
          rw [this, zero_mul]
        · rw [(ih j j (mem_range.1 hj) (mem_range.1 hj)).2 rfl hz, mul_one]
      · intro j' hj' hne
        rw [← mul_sum, (ih j j' (mem_range.1 hj) (mem_range.1 hj')).1 (Ne.symm hne), mul_zero]
      · intro h; exact absurd hj h
    rw [key]
    constructor
    · exact o1 k k' hk hk'
    · rintro rfl hz
      rcases o2 k hk with h | h
      · exact absurd ⟨A, rfl, h⟩ hz
      · exact h

/-- Two-site tensors that are zero where a neighbour is. -/
def Supported (pre post : List (Blk 𝕜)) (θ : Blk 𝕜) : Prop :=
  ∀ x c c' y, [x, c, c', y] ∈ configs θ.dims → ZeroLast pre x ∨ ZeroHead post y → θ.f [x, c, c', y] = 0

/-- `pair_isometry` for tensors that are zero at unused elements. -/
theorem pair_isometry_semi (pre post : List (Blk 𝕜)) (θ φ : Blk 𝕜) (n i j n' nl nr : Nat)
    (hθ : θ.dims = [n, i, j, n']) (hφ : φ.dims = [n, i, j, n'])
    (hpre : FitTo2 pre pre (nl, nl) (n, n)) (hpost : FitTo2 post post (n', n') (nr, nr))
    (hl : ∀ A ∈ pre, LeftSemi A) (hr : ∀ A ∈ post, RightSemi A) (sl : SkipLeft pre) (sr : SkipRight post) (hS : Supported pre post θ) :
    ∑ l ∈ range nl, ∑ r ∈ range nr, ∑ σ ∈ configs (phys pre ++ i :: j :: phys post),
        pairAmp pre θ post σ l r * star (pairAmp pre φ post σ l r)
      = ∑ o ∈ configs θ.dims, θ.f o * star (φ.f o) := by
  have h1 := fun k x hk hx => gram_left_semi hpre rfl rfl rfl hl sl k x hk hx
  have h2 := fun k x hk hx => gram_right_semi hpost rfl rfl rfl hr sr k x hk hx
  simp only at h1 h2
  have e : ∑ l ∈ range nl, ∑ r ∈ range nr, ∑ σ ∈ configs (phys pre ++ i :: j :: phys post),
        pairAmp pre θ post σ l r * star (pairAmp pre φ post σ l r)
      = ∑ k ∈ range n, ∑ x ∈ range n, ∑ k' ∈ range n', ∑ x' ∈ range n', (∑ l ∈ range nl, overlap pre pre l l k x) *
        (∑ s ∈ range i, ∑ t ∈ range j, θ.f [k, s, t, k'] * star (φ.f [x, s, t, x'])) * (∑ r ∈ range nr, overlap post post k' x' r r) := by
    simp only [pairOverlap pre post θ φ n i j n' _ _ _ _ hθ hφ]
    generalize hF : (fun k k' x x' => ∑ s ∈ range i, ∑ t ∈ range j, θ.f [k, s, t, k'] * star (φ.f [x, s, t, x'])) = F
    have hF' : ∀ k k' x x', ∑ s ∈ range i, ∑ t ∈ range j, θ.f [k, s, t, k'] * star (φ.f [x, s, t, x']) = F k k' x x' := by
      intro k k' x x'; rw [← hF]
    simp only [hF', sum_mul, mul_sum]
    simp only [sum_sigma']
    refine sum_nbij' (fun ⟨l, r, k, x, k', x'⟩ => ⟨k, x, k', x', r, l⟩) (fun ⟨k, x, k', x', r, l⟩ => ⟨l, r, k, x, k', x'⟩) ?_ ?_ ?_ ?_ ?_
    · rintro ⟨l, r, k, x, k', x'⟩ hq
      simp only [mem_sigma, mem_range] at hq ⊢
      tauto
    · rintro ⟨k, x, k', x', r, l⟩ hq
      simp only [mem_sigma, mem_range] at hq ⊢
      tauto
    · rintro ⟨l, r, k, x, k', x'⟩ _; rfl
    · rintro ⟨k, x, k', x', r, l⟩ _; rfl
    · rintro ⟨l, r, k, x, k', x'⟩ _; rfl
  have hz : ∀ k s t k', k < n → s < i → t < j → k' < n' → ZeroLast pre k ∨ ZeroHead post k' → θ.f [k, s, t, k'] = 0 := by
    intro k s t k' a1 a2 a3 a4
    exact hS k s t k' (by rw [mem_configs, hθ]; exact .cons a1 (.cons a2 (.cons a3 (.cons a4 .nil))))
  rw [e, hθ]
  simp only [sum_configs_cons', sum_configs_nil]
  refine sum_congr rfl fun k hk => ?_
  rw [sum_eq_single k]
  · have : ∀ k' ∈ range n', ∑ x' ∈ range n', (∑ l ∈ range nl, overlap pre pre l l k k) *
        (∑ s ∈ range i, ∑ t ∈ range j, θ.f [k, s, t, k'] * star (φ.f [k, s, t, x'])) * (∑ r ∈ range nr, overlap post post k' x' r r)
        = ∑ s ∈ range i, ∑ t ∈ range j, θ.f [k, s, t, k'] * star (φ.f [k, s, t, k']) := by
      intro k' hk'
      rw [sum_eq_single k']
      · by_cases hd : ZeroLast pre k ∨ ZeroHead post k'
        · have : ∑ s ∈ range i, ∑ t ∈ range j, θ.f [k, s, t, k'] * star (φ.f [k, s, t, k']) = 0 :=
            sum_eq_zero fun s hs => sum_eq_zero fun t ht => by
              rw [hz k s t k' (mem_range.1 hk) (mem_range.1 hs) (mem_range.1 ht) (mem_range.1 hk') hd, zero_mul]
          rw [this, mul_zero, zero_mul]
        · rw [not_or] at hd
          rw [(h1 k k (mem_range.1 hk) (mem_range.1 hk)).2 rfl hd.1, (h2 k' k' (mem_range.1 hk') (mem_range.1 hk')).2 rfl hd.2, one_mul, mul_one]
      · intro x' hx' hne
        rw [(h2 k' x' (mem_range.1 hk') (mem_range.1 hx')).1 (Ne.symm hne), mul_zero]
      · intro h; exact absurd hk' h
    rw [sum_congr rfl this, sum_comm]
    refine sum_congr rfl fun s _ => ?_
    rw [sum_comm]
  · intro x hx hne
    refine sum_eq_zero fun k' _ => sum_eq_zero fun x' _ => ?_
    rw [(h1 k x (mem_range.1 hk) (mem_range.1 hx)).1 (Ne.symm hne), zero_mul, zero_mul]
  · intro h; exact absurd hk h

/-! ### Amplitudes at unused elements -/

theorem amp_zeroLast {a b : List (Blk 𝕜)} {N M : Nat × Nat} (h : FitTo2 a b N M) (ρ : List Nat) (hρ : InRange ρ (phys a)) (l k : Nat) (hl : l < N.1)
    (hk : k < M.1) (hz : ZeroLast a k) : amp a ρ l k = 0 := by
  induction h generalizing ρ l with
  | nil N => obtain ⟨A, hA, _⟩ := hz; cases hA
  | @cons A B a b N M s n' p' hA hB hf ih =>
    unfold InRange at hρ
    simp only [phys, List.map_cons] at hρ
    obtain ⟨c, ρ, hc, hρ', rfl⟩ := List.forall₂_cons_right_iff.1 hρ
    replace hρ : InRange ρ (phys a) := hρ'
    rw [hA] at hc
    simp only [amp, hA, List.getD_cons_succ, List.getD_cons_zero]
    cases a with
    | nil =>
      cases hf
      cases ρ with
      | cons _ _ => cases hρ'
      | nil =>
      obtain ⟨A', e, hz⟩ := hz
      have e' : A = A' := by simpa using e
      subst e'
      refine sum_eq_zero fun j hj => ?_
      simp only [amp]
      split
      · subst j
        rw [hz l c (by rw [hA]; exact hl) (by rw [hA]; exact hc), zero_mul]
      · rw [mul_zero]
    | cons C a =>
      refine sum_eq_zero fun j hj => ?_
      rw [ih ρ hρ j (mem_range.1 hj) hk (by
        obtain ⟨A', e, hz⟩ := hz
        rw [List.getLast?_cons_cons] at e
        exact ⟨A', e, hz⟩), mul_zero]

theorem amp_zeroHead {a : List (Blk 𝕜)} (ρ : List Nat) (hρ : InRange ρ (phys a)) (k r : Nat)
    (hz : ZeroHead a k) : amp a ρ k r = 0 := by
  cases a with
  | nil => obtain ⟨A, hA, _⟩ := hz; cases hA
  | cons A a =>
    obtain ⟨A', e, hz⟩ := hz
    cases e
    unfold InRange at hρ
    simp only [phys, List.map_cons] at hρ
    obtain ⟨c, ρ, hc, hρ, rfl⟩ := List.forall₂_cons_right_iff.1 hρ
    simp only [amp]
    refine sum_eq_zero fun j hj => ?_
    rw [hz c j hc (mem_range.1 hj), zero_mul]

/-- The entries of a two-site tensor at unused elements do not matter. -/
theorem pairAmp_supported (pre post : List (Blk 𝕜)) (θ φ : Blk 𝕜) (n i j n' nl nr : Nat)
    (hθ : θ.dims = [n, i, j, n']) (hφ : φ.dims = [n, i, j, n'])
    (hpre : FitTo2 pre pre (nl, nl) (n, n)) (hpost : FitTo2 post post (n', n') (nr, nr))
    (heq : ∀ x c c' y, x < n → c < i → c' < j → y < n' → ¬ ZeroLast pre x → ¬ ZeroHead post y → θ.f [x, c, c', y] = φ.f [x, c, c', y])
    (σ : List Nat) (hσ : σ ∈ configs (phys pre ++ i :: j :: phys post)) (l r : Nat) (hl : l < nl) :
    pairAmp pre θ post σ l r = pairAmp pre φ post σ l r := by
  rw [mem_configs] at hσ
  obtain ⟨ρ, ρ1, rfl, h1, h2⟩ := inRange_append_iff hσ
  unfold InRange at h2
  obtain ⟨c, ρ2, hc, h2', rfl⟩ := List.forall₂_cons_right_iff.1 h2
  obtain ⟨c', ρ3, hc', h3, rfl⟩ := List.forall₂_cons_right_iff.1 h2'
  have hlen : ρ.length = pre.length := by rw [h1.length_eq]; simp [phys]
  rw [pairAmp_split pre post θ n i j n' _ _ _ _ _ _ hθ hlen, pairAmp_split pre post φ n i j n' _ _ _ _ _ _ hφ hlen]
  refine sum_congr rfl fun k hk => sum_congr rfl fun k' hk' => ?_
  by_cases z1 : ZeroLast pre k
  · rw [amp_zeroLast hpre ρ h1 l k hl (mem_range.1 hk) z1, zero_mul, zero_mul]
  · by_cases z2 : ZeroHead post k'
    · rw [amp_zeroHead ρ3 h3 k' r z2]; simp only [mul_zero]
    · rw [heq k c c' k' (mem_range.1 hk) hc hc' (mem_range.1 hk') z1 z2]

/-- A tensor without its entries at unused elements. -/
noncomputable def supp (pre post : List (Blk 𝕜)) (θ : Blk 𝕜) : Blk 𝕜 :=
  open Classical in ⟨θ.dims, fun q => if ZeroLast pre (q.getD 0 0) ∨ ZeroHead post (q.getD 3 0) then 0 else θ.f q⟩

theorem supp_supported (pre post : List (Blk 𝕜)) (θ : Blk 𝕜) : Supported pre post (supp pre post θ) := by
  intro x c c' y _ h
  unfold supp
  exact if_pos h

/-! ### The pair of sites -/

/-- `pair_setup` without conditions on the other sites. -/
theorem pair_setup0 (pre post preW postW : List (Blk 𝕜)) (A B W1 W2 : Blk 𝕜)
    (h : Fit (pre ++ A :: B :: post) (preW ++ W1 :: W2 :: postW) (pre ++ A :: B :: post)) (hl : preW.length = pre.length)
    (hc : Closed (pre ++ A :: B :: post)) (hcW : Closed (preW ++ W1 :: W2 :: postW)) :
    ∃ Le Re H2 n i m j n', ∃ T : Vec 𝕜 [n, i, j, n'] →ₗ[𝕜] Vec 𝕜 [n, i, j, n'],
      A.dims = [n, i, m] ∧ B.dims = [m, j, n'] ∧ (pre ≠ [] → rightEnd pre = n) ∧ (pre = [] → 0 < n) ∧
      FitTo2 pre pre (1, 1) (n, n) ∧ FitTo2 post post (n', n') (1, 1) ∧
      leftEnvs star pre preW (onesLike [1, 1, 1]) = .ok Le ∧ rightEnvs star post postW (onesLike [1, 1, 1]) = .ok Re ∧
      twoSite W1 W2 = .ok H2 ∧
      (∀ θ : Blk 𝕜, θ.dims = [n, i, j, n'] → ∃ θ', hamil2site θ H2 Le Re = .ok θ' ∧ θ'.dims = [n, i, j, n'] ∧
        toV [n, i, j, n'] θ' = T (toV [n, i, j, n'] θ)) ∧
      (∀ θ φ : Blk 𝕜, θ.dims = [n, i, j, n'] → φ.dims = [n, i, j, n'] →
        inner 𝕜 (toV [n, i, j, n'] φ) (T (toV [n, i, j, n'] θ)) = pairSandwich pre θ φ post (preW ++ W1 :: W2 :: postW)
          (phys (pre ++ A :: B :: post)) 0 0 0 0 0 0) := by
  obtain ⟨Le, Re, H2, w, w', h1, h2, h3, d1, d2, d3, h4⟩ := effective_setup pre post preW postW A B W1 W2 (onesLike [1, 1, 1])
    (onesLike [1, 1, 1]) h hl (by rw [hc.1, hcW.1]; rfl) (by rw [hc.2, hcW.2]; rfl)
  obtain ⟨n, i, m, j, n', hA, hB, hp, f1, f2⟩ := linked_split h.ket
  rw [hc.1] at f1
  rw [hc.2] at f2
  simp only [hA, hB, List.getD_cons_zero, List.getD_cons_succ] at d1 d2 d3 h4
  obtain ⟨T, hT⟩ := heff_exists d1 d2 d3
  refine ⟨Le, Re, H2, n, i, m, j, n', T, hA, hB, hp, ?_, f1, f2, h1, h2, h3, hT, ?_⟩
  · rintro rfl
    have := hc.1
    simp [leftEnd, hA] at this
    omega
  · intro θ φ hθ hφ
    obtain ⟨θ', g1, g2, g3⟩ := h4 θ φ hθ (hφ.trans hθ.symm)
    obtain ⟨θ'', k1, k2, k3⟩ := hT θ hθ
    have : θ' = θ'' := Except.ok.inj (g1.symm.trans k1)
    subst this
    rw [← k3, inner_toV, ← hθ, g3]
    simp [onesLike]

/-- The effective Hamiltonian gives tensors that are zero at unused elements. -/
theorem image_supported {pre post Ws : List (Blk 𝕜)} {n i j n' : Nat} {ds : List Nat} {T : Vec 𝕜 [n, i, j, n'] →ₗ[𝕜] Vec 𝕜 [n, i, j, n']}
    (hpre : FitTo2 pre pre (1, 1) (n, n)) (hpost : FitTo2 post post (n', n') (1, 1)) (hds : ds = phys pre ++ i :: j :: phys post)
    (hE : ∀ θ φ : Blk 𝕜, θ.dims = [n, i, j, n'] → φ.dims = [n, i, j, n'] →
      inner 𝕜 (toV [n, i, j, n'] φ) (T (toV [n, i, j, n'] θ)) = pairSandwich pre θ φ post Ws ds 0 0 0 0 0 0)
    (θ θ' : Blk 𝕜) (hθ : θ.dims = [n, i, j, n']) (hθ' : θ'.dims = [n, i, j, n']) (hT : toV [n, i, j, n'] θ' = T (toV [n, i, j, n'] θ)) :
    Supported pre post θ' := by
  intro x c c' y hq hz
  rw [hθ'] at hq
  classical
  let e : Blk 𝕜 := ⟨[n, i, j, n'], fun q => if q = [x, c, c', y] then 1 else 0⟩
  have h1 := hE θ e hθ rfl
  rw [← hT] at h1
  have h2 : inner 𝕜 (toV [n, i, j, n'] e) (toV [n, i, j, n'] θ') = θ'.f [x, c, c', y] := by
    rw [inner_toV, sum_eq_single [x, c, c', y]]
    · show _ * star (if _ then _ else _) = _
      rw [if_pos rfl]; simp
    · intro q _ hne
      show _ * star (if _ then _ else _) = _
      rw [if_neg hne]; simp
    · intro h; exact absurd hq h
  rw [h2] at h1
  rw [h1]
  unfold pairSandwich
  refine sum_eq_zero fun σ hσ => sum_eq_zero fun τ hτ => ?_
  have : pairAmp pre e post τ 0 0 = pairAmp pre (⟨[n, i, j, n'], fun _ => 0⟩ : Blk 𝕜) post τ 0 0 := by
    refine pairAmp_supported pre post e _ n i j n' 1 1 rfl rfl hpre hpost ?_ τ (by rw [← hds]; exact hτ) 0 0 (by omega)
    intro x1 c1 c1' y1 _ _ _ _ z1 z2
    show (if _ then _ else _) = _
    rw [if_neg]
    intro hh
    cases hh
    rcases hz with h | h
    · exact z1 h
    · exact z2 h
  rw [this]
  have : pairAmp pre (⟨[n, i, j, n'], fun _ => 0⟩ : Blk 𝕜) post τ 0 0 = 0 := by
    unfold pairAmp
    simp
  rw [this]
  simp

/-! ### Conditions by site -/

theorem pairSemi_pre {s : List (Blk 𝕜)} {o : Nat} (h : PairSemi s o) : (∀ X ∈ s.take o, LeftSemi X) ∧ SkipLeft (s.take o) := by
  constructor
  · intro X hX
    obtain ⟨i, hi⟩ := List.mem_iff_getElem?.1 hX
    rw [List.getElem?_take] at hi
    split at hi
    · exact h.left i X hi (by assumption)
    · cases hi
  · intro i X Y hX hY
    rw [List.getElem?_take] at hX hY
    split at hX
    · split at hY
      · exact h.skipLeft i X Y hX hY (by omega)
      · cases hY
    · cases hX

theorem pairSemi_post {s : List (Blk 𝕜)} {o : Nat} (h : PairSemi s o) : (∀ X ∈ s.drop (o + 2), RightSemi X) ∧ SkipRight (s.drop (o + 2)) := by
  constructor
  · intro X hX
    obtain ⟨i, hi⟩ := List.mem_iff_getElem?.1 hX
    rw [List.getElem?_drop] at hi
    exact h.right _ X hi (by omega)
  · intro i X Y hX hY
    rw [List.getElem?_drop] at hX hY
    exact h.skipRight (o + 2 + i) X Y hX (by rw [← hY]; rfl) (by omega)

/-- The product of the two sites is zero where a neighbour is. -/
theorem pairSemi_supported {s : List (Blk 𝕜)} {o : Nat} (h : PairSemi s o) {A B θ : Blk 𝕜} {n i m j n' : Nat}
    (gA : s[o]? = some A) (gB : s[o + 1]? = some B) (hA : A.dims = [n, i, m]) (hB : B.dims = [m, j, n']) (hlk : Linked 3 (s.map Blk.dims))
    (hθ : θ.dims = [n, i, j, n'])
    (hf : ∀ x c c' y, x < n → c < i → c' < j → y < n' → θ.f [x, c, c', y] = ∑ k ∈ range m, A.f [x, c, k] * B.f [k, c', y]) :
    Supported (s.take o) (s.drop (o + 2)) θ := by
  intro x c c' y hq hz
  rw [hθ, mem_configs] at hq
  unfold InRange at hq
  simp only [List.forall₂_cons] at hq
  obtain ⟨hx, hc, hc', hy, _⟩ := hq
  rw [hf x c c' y hx hc hc' hy]
  have hlk' := hlk.2
  refine sum_eq_zero fun k hk => ?_
  rcases hz with ⟨X, hX, hz⟩ | ⟨X, hX, hz⟩
  · have ho : o ≠ 0 := by rintro rfl; simp at hX
    obtain ⟨p, rfl⟩ : ∃ p, o = p + 1 := ⟨o - 1, by omega⟩
    have hlt := (List.getElem?_eq_some_iff.1 gA).1
    have hX' : s[p]? = some X := by
      rw [List.getLast?_eq_getElem?, List.length_take, Nat.min_eq_left hlt.le, List.getElem?_take] at hX
      simpa using hX
    have h2 := hlk' p X.dims A.dims (by simp [hX']) (by simp [gA])
    have h3 : X.dims.getD 2 0 = n := by
      rw [List.getD_eq_getElem?_getD, h2, hA]; rfl
    have := h.skipLeft p X A hX' gA (by omega) x (by omega) hz
    rw [this c k (by rw [hA]; exact hc) (by rw [hA]; exact mem_range.1 hk), zero_mul]
  · have hX' : s[o + 1 + 1]? = some X := by
      rw [List.head?_drop] at hX
      exact hX
    have h2 := hlk' (o + 1) B.dims X.dims (by simp [gB]) (by simp [hX'])
    have h3 : X.dims.getD 0 0 = n' := by
      rw [List.getD_eq_getElem?_getD, ← h2, hB]; rfl
    have := h.skipRight (o + 1) B X gB hX' (by omega) y (by omega) hz
    rw [this k c' (by rw [hB]; exact mem_range.1 hk) (by rw [hB]; exact hc'), mul_zero]

theorem semiCanonical_pair {s : List (Blk 𝕜)} {o c : Nat} (h : SemiCanonical s c) (hc : c = o ∨ c = o + 1) : PairSemi s o :=
  ⟨fun i A hA hi => h.left i A hA (by omega), fun i A hA hi => h.right i A hA (by omega),
    fun i A B hA hB hi => h.skipLeft i A B hA hB (by omega), fun i A B hA hB hi => h.skipRight i A B hA hB (by omega)⟩

theorem leftOrth_semi {A : Blk 𝕜} (h : LeftOrth A) : LeftSemi A :=
  ⟨fun a b ha hb hab => by rw [h a b ha hb, if_neg hab], fun a ha => .inr (by rw [h a a ha ha, if_pos rfl])⟩

theorem rightOrth_semi {A : Blk 𝕜} (h : RightOrth A) : RightSemi A :=
  ⟨fun a b ha hb hab => by rw [h a b ha hb, if_neg hab], fun a ha => .inr (by rw [h a a ha ha, if_pos rfl])⟩

theorem canonical_semi {s : List (Blk 𝕜)} {oc : Nat} (h : Canonical s oc) : SemiCanonical s oc := by
  refine ⟨fun i A hA hi => leftOrth_semi (h.1 i A hA hi), fun i A hA hi => rightOrth_semi (h.2 i A hA hi), ?_, ?_⟩
  · intro i A B hA hB hi k hk hz
    have h1 := h.1 i A hA hi k k hk hk
    rw [if_pos rfl, sum_eq_zero fun a ha => sum_eq_zero fun c hc => by rw [hz a c (mem_range.1 ha) (mem_range.1 hc), mul_zero]] at h1
    exact absurd h1 zero_ne_one
  · intro i A B hA hB hi k hk hz
    have h1 := h.2 (i + 1) B hB (by omega) k k hk hk
    rw [if_pos rfl, sum_eq_zero fun a ha => sum_eq_zero fun c hc => by rw [hz a c (mem_range.1 ha) (mem_range.1 hc), zero_mul]] at h1
    exact absurd h1 zero_ne_one

end DM
end QuantiT
