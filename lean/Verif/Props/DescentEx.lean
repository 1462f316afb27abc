import Verif.Props.Descent
import Verif.Lemmas.SvdExists
/-
Cases that meet the hypotheses of C72, C73 and C74.
-/
namespace QuantiT
namespace DM
open Finset Spec MP

/-- An exact SVD of two-site tensors exists, over the real and the complex numbers. -/
theorem svdPair_exists (𝕜 : Type) [RCLike 𝕜] : ∃ svd : Blk 𝕜 → Blk 𝕜 × Blk 𝕜 × Blk 𝕜, ∀ X l s t r, X.dims = [l, s, t, r] →
    ∃ k, SvdPair X (svd X).1 (svd X).2.1 (svd X).2.2 l s t r k := by
  have H : ∀ X : Blk 𝕜, ∃ U : Blk 𝕜 × Blk 𝕜 × Blk 𝕜, ∀ l s t r, X.dims = [l, s, t, r] → ∃ k, SvdPair X U.1 U.2.1 U.2.2 l s t r k := by
    intro X
    by_cases hX : ∃ l s t r, X.dims = [l, s, t, r]
    · obtain ⟨l, s, t, r, hd⟩ := hX
      obtain ⟨u, d, v, h1, h2, _, _⟩ := svd_exists (𝕜 := 𝕜) (l * s) (t * r) fun a b => X.f [a / s, a % s, b / r, b % r]
      have flat : ∀ {a c n : Nat}, c < n → (a * n + c) / n = a ∧ (a * n + c) % n = c := by
        intro a c n hc
        have hn : 0 < n := by omega
        constructor
        · rw [Nat.add_comm, Nat.add_mul_div_right _ _ hn, Nat.div_eq_of_lt hc, Nat.zero_add]
        · rw [Nat.add_comm, Nat.add_mul_mod_self_right, Nat.mod_eq_of_lt hc]
      have hsum : ∀ (l s : Nat) (f : Nat → 𝕜), ∑ i ∈ range l, ∑ c ∈ range s, f (i * s + c) = ∑ a ∈ range (l * s), f a := by
        intro l s f
        induction l with
        | zero => simp
        | succ l ih => rw [sum_range_succ, ih, Nat.add_mul, Nat.one_mul, sum_range_add]
      refine ⟨(⟨[l, s, min (l * s) (t * r)], fun o => u (o.getD 0 0 * s + o.getD 1 0) (o.getD 2 0)⟩,
        ⟨[min (l * s) (t * r)], fun o => (d (o.getD 0 0) : 𝕜)⟩,
        ⟨[t, r, min (l * s) (t * r)], fun o => v (o.getD 0 0 * r + o.getD 1 0) (o.getD 2 0)⟩), ?_⟩
      intro l' s' t' r' hd'
      rw [hd] at hd'
      obtain ⟨rfl, rfl, rfl, rfl, _⟩ : l = l' ∧ s = s' ∧ t = t' ∧ r = r' ∧ True := by simpa using hd'
      refine ⟨min (l * s) (t * r), rfl, rfl, rfl, ?_, ?_, ?_, ?_⟩
      · intro m _
        simp
      · intro a b ha hb
        simp only [List.getD_cons_zero, List.getD_cons_succ]
        rw [hsum l s fun x => star (u x a) * u x b]
        exact (h2 a b ha hb).1
      · intro a b ha hb
        simp only [List.getD_cons_zero, List.getD_cons_succ]
        rw [hsum t r fun x => star (v x a) * v x b]
        exact (h2 a b ha hb).2
      · intro i c c' j hi hc hc' hj
        have := h1 (i * s + c) (c' * r + j) (flat_bound hi hc) (flat_bound hc' hj)
        simp only [flat hc, flat hj] at this
        rw [this]
        simp
    · exact ⟨(X, X, X), fun l s t r h => absurd ⟨l, s, t, r, h⟩ hX⟩
  choose svd hsvd using H
  exact ⟨svd, hsvd⟩

/-- So does one of the tensors of single sites. -/
theorem svdOk_exists (𝕜 : Type) [RCLike 𝕜] : ∃ svd : Blk 𝕜 → Nat → Blk 𝕜 × Blk 𝕜 × Blk 𝕜, SvdOk svd := by
  obtain ⟨svd, h⟩ := svdPair_exists 𝕜
  refine ⟨fun A sp =>
    if sp = 2 then
      let X := svd ⟨[A.dims.getD 0 0, A.dims.getD 1 0, A.dims.getD 2 0, 1], fun o => A.f [o.getD 0 0, o.getD 1 0, o.getD 2 0]⟩
      (X.1, X.2.1, ⟨[A.dims.getD 2 0, X.2.1.dims.getD 0 0], fun o => X.2.2.f [o.getD 0 0, 0, o.getD 1 0]⟩)
    else
      let X := svd ⟨[1, A.dims.getD 0 0, A.dims.getD 1 0, A.dims.getD 2 0], fun o => A.f [o.getD 1 0, o.getD 2 0, o.getD 3 0]⟩
      (⟨[A.dims.getD 0 0, X.2.1.dims.getD 0 0], fun o => X.1.f [0, o.getD 0 0, o.getD 1 0]⟩, X.2.1, X.2.2), ?_, ?_⟩
  · intro A l s r hA
    obtain ⟨k, e1, e2, e3, e4, e5, e6, e7⟩ := h ⟨[l, s, r, 1], fun o => A.f [o.getD 0 0, o.getD 1 0, o.getD 2 0]⟩ l s r 1 rfl
    refine ⟨k, ?_⟩
    simp only [hA, List.getD_cons_zero, List.getD_cons_succ, if_true]
    refine ⟨e1, e2, by rw [e2]; rfl, e4, ?_, e5⟩
    intro i c j hi hc hj
    exact e7 i c j 0 hi hc hj (by omega)
  · intro A l s r hA
    obtain ⟨k, e1, e2, e3, e4, e5, e6, e7⟩ := h ⟨[1, l, s, r], fun o => A.f [o.getD 1 0, o.getD 2 0, o.getD 3 0]⟩ 1 l s r rfl
    refine ⟨k, ?_⟩
    simp only [hA, List.getD_cons_zero, List.getD_cons_succ, if_neg (by decide : ¬ (1 : Nat) = 2)]
    refine ⟨by rw [e2]; rfl, e2, e3, ?_, e6⟩
    intro i c j hi hc hj
    exact e7 0 i c j (by omega) hi hc hj

/-- The two-site tensor of a chain of two sites and its product with the Hamiltonian. -/
theorem two_site_entries {𝕜 : Type} [RCLike 𝕜] {Ws s : List (Blk 𝕜)} (hF : Fit s Ws s) (hc : Closed s) (hcW : Closed Ws)
    (h2 : s.length = 2) {ψ ψ' : Blk 𝕜} (h : PairTensors Ws s 0 ψ ψ') :
    ∃ d e, phys s = [d, e] ∧ ψ.dims = [1, d, e, 1] ∧ ∀ a b, a < d → b < e → ψ.f [0, a, b, 0] = amp s [a, b] 0 0 ∧
      ψ'.f [0, a, b, 0] = ∑ σ ∈ configs (phys s), amp s σ 0 0 * opEntry Ws [a, b] σ 0 0 := by
  obtain ⟨A, B, W1, W2, Le, Re, H2, b1, b2, b3, b4, b5, b6, b7, b8, b9⟩ := h
  have hWl : Ws.length = s.length := (Fit.lengths hF).1
  obtain ⟨A', B', rfl⟩ := List.length_eq_two.1 h2
  obtain ⟨W1', W2', rfl⟩ := List.length_eq_two.1 (hWl.trans h2)
  simp only [List.getElem?_cons_zero, Option.some.injEq, Nat.zero_add, List.getElem?_cons_succ] at b1 b2 b3 b4
  subst b1 b2 b3 b4
  obtain ⟨Le', Re', H2', n, i, m, j, n', T, hA, hB, hp, hp0, h1, h2, h3, hT, hE, hN⟩ :=
    pair_setup [] [] [] [] A' B' W1' W2' hF rfl hc hcW (fun X h => by cases h) (fun X h => by cases h)
  simp only [List.take_zero, Nat.zero_add, List.drop_succ_cons, List.drop_zero] at b6 b7
  rw [h1] at b6; cases b6
  rw [h2] at b7; cases b7
  rw [h3] at b8; cases b8
  have hn : n = 1 := by have := hc.1; simpa [leftEnd, hA] using this
  have hn' : n' = 1 := by have := hc.2; simpa [rightEnd, hB] using this
  subst hn hn'
  have hψd : ψ.dims = [1, i, j, 1] := by
    simp [dot1, hA, hB] at b5
    rw [← b5]
  have hψf : ∀ a b, ψ.f [0, a, b, 0] = amp [A', B'] [a, b] 0 0 := by
    intro a b
    have : ψ.f [0, a, b, 0] = ∑ k ∈ range m, A'.f [0, a, k] * B'.f [k, b, 0] := by
      simp [dot1, hA, hB] at b5
      rw [← b5]
      rfl
    rw [this]
    simp [amp, hA, hB]
  refine ⟨i, j, by simp [phys, hA, hB], hψd, fun a b ha hb => ⟨hψf a b, ?_⟩⟩
  obtain ⟨φ, k1, k2, k3⟩ := hT ψ hψd
  rw [k1] at b9; cases b9
  have := hE ψ ⟨[1, i, j, 1], fun o => if o = [0, a, b, 0] then 1 else 0⟩ hψd rfl
  rw [← k3, inner_toV] at this
  have hmem : ∀ x y, x < i → y < j → [0, x, y, 0] ∈ configs [1, i, j, 1] := by
    intro x y hx hy
    rw [mem_configs]
    unfold InRange
    simp [hx, hy]
  rw [sum_eq_single_of_mem [0, a, b, 0] (hmem a b ha hb) (by intro o _ h; simp [h])] at this
  simp only [if_true, star_one, mul_one] at this
  rw [this]
  unfold pairSandwich
  have hph : phys ([] ++ A' :: B' :: []) = [i, j] := by simp [phys, hA, hB]
  have hph' : phys [A', B'] = [i, j] := hph
  rw [hph, hph']
  refine sum_congr rfl fun σ hσ => ?_
  rw [sum_eq_single_of_mem [a, b] (by rw [mem_configs]; unfold InRange; simp [ha, hb]) ?_]
  · have h1 : pairAmp [] ψ [] σ 0 0 = amp [A', B'] σ 0 0 := by
      rw [mem_configs] at hσ
      obtain ⟨x, y, rfl⟩ : ∃ x y, σ = [x, y] := List.length_eq_two.1 (by simpa using hσ.length_eq)
      rw [← hψf]
      simp [pairAmp, hψd, amp]
    have h2 : pairAmp [] (⟨[1, i, j, 1], fun o => if o = [0, a, b, 0] then 1 else 0⟩ : Blk 𝕜) [] [a, b] 0 0 = 1 := by
      simp [pairAmp, amp]
    rw [h1, h2]
    simp
  · intro τ hτ hne
    rw [mem_configs] at hτ
    obtain ⟨x, y, rfl⟩ : ∃ x y, τ = [x, y] := List.length_eq_two.1 (by simpa using hτ.length_eq)
    have : pairAmp [] (⟨[1, i, j, 1], fun o => if o = [0, a, b, 0] then 1 else 0⟩ : Blk 𝕜) [] [x, y] 0 0 = 0 := by
      have : ¬ (x = a ∧ y = b) := fun h => hne (by rw [h.1, h.2])
      simp [pairAmp, amp, this]
    rw [this]
    simp

/-! ### A Hamiltonian that flips the first of two sites -/

/-- `X ⊗ 1` as an MPO. -/
def flipOp : List (Blk ℝ) :=
  [⟨[1, 2, 1, 2], fun o => if o.getD 1 0 = o.getD 3 0 then 0 else 1⟩, ⟨[1, 2, 1, 2], fun o => if o.getD 1 0 = o.getD 3 0 then 1 else 0⟩]

/-- The state in which both sites are in state 0. -/
def flipStart : List (Blk ℝ) :=
  [⟨[1, 2, 1], fun o => if o.getD 1 0 = 0 then 1 else 0⟩, ⟨[1, 2, 1], fun o => if o.getD 1 0 = 0 then 1 else 0⟩]

theorem flip_entry (a b c d : Nat) : opEntry flipOp [a, b] [c, d] 0 0 = if a = c then 0 else if b = d then 1 else 0 := by
  simp [opEntry, mpoEntry, flipOp]
  split <;> split <;> rfl

theorem sum_two_two (f : List Nat → ℝ) : ∑ σ ∈ configs [2, 2], f σ = f [0, 0] + f [0, 1] + f [1, 0] + f [1, 1] := by
  rw [show configs [2, 2] = {[0, 0], [0, 1], [1, 0], [1, 1]} by decide]
  rw [sum_insert (by decide), sum_insert (by decide), sum_insert (by decide), sum_singleton]
  ring

theorem flip_norm {s : List (Blk ℝ)} (h : phys s = [2, 2]) :
    normSq s = amp s [0, 0] 0 0 ^ 2 + amp s [0, 1] 0 0 ^ 2 + amp s [1, 0] 0 0 ^ 2 + amp s [1, 1] 0 0 ^ 2 := by
  unfold normSq
  rw [h, sum_two_two]
  simp

theorem flip_energy {s : List (Blk ℝ)} (h : phys s = [2, 2]) :
    energy flipOp s = 2 * (amp s [0, 0] 0 0 * amp s [1, 0] 0 0 + amp s [0, 1] 0 0 * amp s [1, 1] 0 0) := by
  unfold energy sandwich
  rw [h, sum_two_two]
  simp only [sum_two_two, flip_entry]
  simp
  ring

theorem flip_herm : HermitianOp flipOp [2, 2] := by
  intro σ hσ τ hτ
  rw [mem_configs] at hσ hτ
  obtain ⟨a, b, rfl⟩ : ∃ x y, σ = [x, y] := List.length_eq_two.1 (by simpa using hσ.length_eq)
  obtain ⟨c, d, rfl⟩ : ∃ x y, τ = [x, y] := List.length_eq_two.1 (by simpa using hτ.length_eq)
  rw [flip_entry, flip_entry]
  simp only [eq_comm, star_trivial]

theorem flip_bound : BoundedBelow flipOp [2, 2] (-1) := by
  intro v
  rw [sum_two_two, sum_two_two]
  simp only [sum_two_two, flip_entry]
  simp
  nlinarith [sq_nonneg (v [0, 0] + v [1, 0]), sq_nonneg (v [0, 1] + v [1, 1])]

/-- The residual is `1 - e²`. -/
theorem flip_residual {s : List (Blk ℝ)} (hF : Fit s flipOp s) (hc : Closed s) (hp : phys s = [2, 2]) (hn : normSq s = 1)
    {ψ ψ' : Blk ℝ} (h : PairTensors flipOp s 0 ψ ψ') : ψ.dims = [1, 2, 2, 1] ∧
      ∑ o ∈ configs ψ.dims, ‖ψ'.f o - (energy flipOp s : ℝ) * ψ.f o‖ ^ 2 = 1 - energy flipOp s ^ 2 := by
  have h2 : s.length = 2 := by have := congrArg List.length hp; simpa [phys] using this
  obtain ⟨d, e, h1, hψd, hf⟩ := two_site_entries hF hc ⟨rfl, rfl⟩ h2 h
  rw [hp] at h1
  obtain ⟨rfl, rfl⟩ : 2 = d ∧ 2 = e := by simpa using h1
  refine ⟨hψd, ?_⟩
  rw [hψd]
  have hcf : configs [1, 2, 2, 1] = {[0, 0, 0, 0], [0, 0, 1, 0], [0, 1, 0, 0], [0, 1, 1, 0]} := by decide
  rw [hcf, sum_insert (by decide), sum_insert (by decide), sum_insert (by decide), sum_singleton]
  rw [(hf 0 0 (by omega) (by omega)).1, (hf 0 0 (by omega) (by omega)).2, (hf 0 1 (by omega) (by omega)).1,
    (hf 0 1 (by omega) (by omega)).2, (hf 1 0 (by omega) (by omega)).1, (hf 1 0 (by omega) (by omega)).2,
    (hf 1 1 (by omega) (by omega)).1, (hf 1 1 (by omega) (by omega)).2]
  rw [hp]
  simp only [sum_two_two, flip_entry]
  have he := flip_energy hp
  have hn' := flip_norm hp
  rw [hn] at hn'
  generalize energy flipOp s = E at *
  simp
  generalize amp s [0, 0] 0 0 = p at *
  generalize amp s [0, 1] 0 0 = q at *
  generalize amp s [1, 0] 0 0 = r at *
  generalize amp s [1, 1] 0 0 = t at *
  linear_combination (-1 - E ^ 2) * hn' + 2 * E * he

theorem flip_regular {s : List (Blk ℝ)} (hF : Fit s flipOp s) (hc : Closed s) (hp : phys s = [2, 2]) (hn : normSq s = 1)
    (he : energy flipOp s = 0 ∨ energy flipOp s = -1) : Regular flipOp s 0 := by
  intro ψ ψ' h
  obtain ⟨hd, hr⟩ := flip_residual hF hc hp hn h
  rcases he with he | he
  · left
    unfold Improvable
    rw [he] at hr ⊢
    refine le_of_le_of_eq ?_ hr.symm
    norm_num
  · right
    rw [he] at hr ⊢
    refine ⟨by norm_num, fun o ho => ?_⟩
    rw [show (1 : ℝ) - (-1) ^ 2 = 0 by norm_num, sum_eq_zero_iff_of_nonneg (fun _ _ => by positivity)] at hr
    have := hr o ho
    have h0 : ψ'.f o - (-1 : ℝ) * ψ.f o = 0 := by simpa using this
    have : ((-1 : ℝ) : ℝ) = -1 := rfl
    simp at h0 ⊢
    linarith

theorem flipStart_good : Good flipOp [2, 2] flipStart 0 := by
  have hl : Linked 3 (flipStart.map Blk.dims) := by
    refine ⟨by simp [flipStart], fun i s s' h1 h2 => ?_⟩
    match i, h1, h2 with
    | 0, h1, h2 => cases h1; cases h2; rfl
    | 1, h1, h2 => cases h2
    | _ + 2, h1, h2 => cases h1
  have hw : Linked 4 (flipOp.map Blk.dims) := by
    refine ⟨by simp [flipOp], fun i s s' h1 h2 => ?_⟩
    match i, h1, h2 with
    | 0, h1, h2 => cases h1; cases h2; rfl
    | 1, h1, h2 => cases h2
    | _ + 2, h1, h2 => cases h1
  refine ⟨⟨hl, hw, hl, rfl, rfl⟩, ⟨rfl, rfl⟩, rfl, ⟨fun i A _ h => by omega, ?_⟩, ?_⟩
  · intro i A h hi
    match i, hi with
    | 1, _ =>
      simp [flipStart] at h
      subst h
      intro a b ha hb
      simp at ha hb
      subst ha hb
      simp
    | i + 2, _ => simp [flipStart] at h
  · rw [flip_norm rfl]
    simp [amp, flipStart]

theorem flipStart_energy : energy flipOp flipStart = 0 := by
  rw [flip_energy rfl]
  simp [amp, flipStart]

/-- The span of the starting state and its product with the Hamiltonian has the ground state. -/
theorem flip_trial (E : ℝ) (a10 : ∀ ψ ψ', PairTensors flipOp flipStart 0 ψ ψ' → ∀ (x y : ℝ) (θ : Blk ℝ), θ.dims = ψ.dims →
      (∀ o ∈ configs ψ.dims, θ.f o = x * ψ.f o + y * ψ'.f o) →
      E * ∑ σ ∈ configs (phys flipStart), ‖pairAmp (flipStart.take 0) θ (flipStart.drop (0 + 2)) σ 0 0‖ ^ 2
        ≤ RCLike.re (pairSandwich (flipStart.take 0) θ θ (flipStart.drop (0 + 2)) flipOp (phys flipStart) 0 0 0 0 0 0)) : E ≤ -1 := by
  have hg := flipStart_good
  -- the trial state
  obtain ⟨Le, Re, H2, n, i, m, j, n', T, hA, hB, hp, hp0, h1, h2, h3, hT, hE, hN⟩ :=
    pair_setup [] [] [] [] flipStart[0] flipStart[1] flipOp[0] flipOp[1] hg.fit rfl hg.closed ⟨rfl, rfl⟩
      (fun X h => by cases h) (fun X h => by cases h)
  obtain ⟨ψ, hψ, hψd⟩ : ∃ ψ, dot1 flipStart[0] flipStart[1] 2 0 = .ok ψ ∧ ψ.dims = [n, i, j, n'] := by
    refine ⟨_, by simp [dot1, hA, hB]; rfl, by simp⟩
  obtain ⟨ψ', k1, k2, k3⟩ := hT ψ hψd
  have hpt : PairTensors flipOp flipStart 0 ψ ψ' :=
    ⟨flipStart[0], flipStart[1], flipOp[0], flipOp[1], Le, Re, H2, rfl, rfl, rfl, rfl, hψ, h1, h2, h3, k1⟩
  obtain ⟨d, e, q1, hd, hf⟩ := two_site_entries hg.fit hg.closed ⟨rfl, rfl⟩ rfl hpt
  obtain ⟨rfl, rfl⟩ : 2 = d ∧ 2 = e := by
    rw [show phys flipStart = [2, 2] from rfl] at q1
    simpa using q1
  have hup := a10 ψ ψ' hpt 1 (-1) ⟨ψ.dims, fun o => ψ.f o - ψ'.f o⟩ rfl (fun o _ => by show _ - _ = _; ring)
  rw [show phys flipStart = [2, 2] from rfl] at hup
  have hpa : ∀ a b, a < 2 → b < 2 → pairAmp (flipStart.take 0) ⟨ψ.dims, fun o => ψ.f o - ψ'.f o⟩ (flipStart.drop (0 + 2)) [a, b] 0 0
      = (if a = 0 ∧ b = 0 then 1 else 0) - (if a = 1 ∧ b = 0 then 1 else 0) := by
    intro a b ha hb
    have h1 := hf a b ha hb
    have : pairAmp (flipStart.take 0) ⟨ψ.dims, fun o => ψ.f o - ψ'.f o⟩ (flipStart.drop (0 + 2)) [a, b] 0 0
        = ψ.f [0, a, b, 0] - ψ'.f [0, a, b, 0] := by
      simp [pairAmp, hd, amp, flipStart]
    rw [this, h1.1, h1.2, show phys flipStart = [2, 2] from rfl]
    simp only [sum_two_two, flip_entry]
    simp [amp, flipStart]
    interval_cases a <;> interval_cases b <;> simp
  unfold pairSandwich at hup
  simp only [sum_two_two, flip_entry, hpa 0 0 (by omega) (by omega), hpa 0 1 (by omega) (by omega), hpa 1 0 (by omega) (by omega),
    hpa 1 1 (by omega) (by omega)] at hup
  norm_num at hup
  linarith

/-- The first update finds the ground state. -/
theorem flip_first (svd : Blk ℝ → Blk ℝ × Blk ℝ × Blk ℝ)
    (hsvd : ∀ X l s t r, X.dims = [l, s, t, r] → ∃ k, SvdPair X (svd X).1 (svd X).2.1 (svd X).2.2 l s t r k) (fwd : Bool) :
    ∃ s', (blkDmrg flipOp svd).fresh 0 fwd flipStart = .ok (-1, s') ∧ Fit s' flipOp s' ∧ Closed s' ∧ phys s' = [2, 2] ∧
      normSq s' = 1 ∧ energy flipOp s' = -1 := by
  have hg := flipStart_good
  obtain ⟨E, s', a1, a2, a3, a4, a5, a6, a7, a8, a9, a10⟩ := C73_update_partial flipOp flipStart svd 0 fwd hsvd hg.fit hg.closed ⟨rfl, rfl⟩
    flip_herm (by simp [flipStart]) ⟨fun i A _ h => by omega, fun i A h hi => by
      match i, hi with
      | i + 2, _ => simp [flipStart] at h⟩ hg.norm
    (flip_regular hg.fit hg.closed rfl hg.norm (Or.inl flipStart_energy))
  have hlo : -1 ≤ E := by rw [a7]; exact C73_bound flipOp s' (-1) (by rw [a4]; exact flip_bound) a6
  have hup := flip_trial E a10
  have hE1 : E = -1 := by linarith
  subst hE1
  exact ⟨s', a1, a2, a3, a4, a6, a7.symm⟩

/-- From the ground state on, every update is regular. -/
theorem flip_run (svd : Blk ℝ → Blk ℝ × Blk ℝ × Blk ℝ)
    (hsvd : ∀ X l s t r, X.dims = [l, s, t, r] → ∃ k, SvdPair X (svd X).1 (svd X).2.1 (svd X).2.2 l s t r k) :
    ∀ (l : List (Nat × Bool)) (s : List (Blk ℝ)), (∀ p ∈ l, p.1 = 0) → Fit s flipOp s → Closed s → phys s = [2, 2] →
      normSq s = 1 → energy flipOp s = -1 → RegularRun (blkDmrg flipOp svd) flipOp l s
  | [], _, _, _, _, _, _, _ => trivial
  | (o, f) :: l, s, hl, hF, hc, hp, hn, he => by
    have ho : o = 0 := hl (o, f) (by simp)
    subst ho
    have hlen : s.length = 2 := by have := congrArg List.length hp; simpa [phys] using this
    have hreg := flip_regular hF hc hp hn (Or.inr he)
    refine ⟨hreg, fun r hr => ?_⟩
    obtain ⟨E, s', a1, a2, a3, a4, a5, a6, a7, a8, _⟩ := C73_update_partial flipOp s svd 0 f hsvd hF hc ⟨rfl, rfl⟩
      (by rw [hp]; exact flip_herm) (by omega) ⟨fun i A _ h => by omega, fun i A h hi => by
        have := (List.getElem?_eq_some_iff.1 h).1
        omega⟩ hn hreg
    rw [a1] at hr
    cases hr
    have hlo := C73_bound flipOp s' (-1) (by rw [a4, hp]; exact flip_bound) a6
    exact flip_run svd hsvd l s' (fun p hp => hl p (by simp [hp])) a2 a3 (a4.trans hp) a6 (by linarith)

/-- The hypotheses of C73 are met, by an update that finds the ground state. -/
example : ∃ (svd : Blk ℝ → Blk ℝ × Blk ℝ × Blk ℝ) (s' : List (Blk ℝ)), energy flipOp flipStart = 0 ∧
    (blkDmrg flipOp svd).fresh 0 true flipStart = .ok (-1, s') ∧ normSq s' = 1 ∧ energy flipOp s' = -1 := by
  obtain ⟨svd, hsvd⟩ := svdPair_exists ℝ
  obtain ⟨s1, b1, _, _, _, b5, b6⟩ := flip_first svd hsvd true
  exact ⟨svd, s1, flipStart_energy, b1, b5, b6⟩

/-- The hypotheses of C74 are met, with any number of sweeps. -/
example : ∃ svd svd1, ∀ (above : ℝ → ℝ → Bool) (maxIt : Nat), 1 ≤ maxIt →
    ∃ e fin oc log, dmrg true (blkDmrg flipOp svd) (.ok (onesLike [1, 1, 1])) above tooSmall (moveOcDense star svd1) 100000 maxIt 2
      flipStart 0 = .ok (e, fin, oc, log) ∧ normSq fin = 1 ∧ e = energy flipOp fin ∧ -1 ≤ e ∧ e ≤ 0 := by
  obtain ⟨svd, hsvd⟩ := svdPair_exists ℝ
  obtain ⟨svd1, hsvd1⟩ := svdOk_exists ℝ
  refine ⟨svd, svd1, fun above maxIt hmax => ?_⟩
  have hg := flipStart_good
  obtain ⟨s1, b1, b2, b3, b4, b5, b6⟩ := flip_first svd hsvd false
  have hreg : RegularRun (blkDmrg flipOp svd) flipOp (tours 2 0 maxIt) flipStart := by
    obtain ⟨k, rfl⟩ : ∃ k, maxIt = k + 1 := ⟨maxIt - 1, by omega⟩
    rw [tours_succ]
    refine ⟨flip_regular hg.fit hg.closed rfl hg.norm (Or.inl flipStart_energy), fun r hr => ?_⟩
    rw [b1] at hr
    cases hr
    refine flip_run svd hsvd _ s1 ?_ b2 b3 b4 b5 b6
    intro p hp
    have : ∀ n, ∀ p ∈ tours 2 0 n, p.1 = 0 := by
      intro n p hp
      unfold tours at hp
      rw [List.mem_flatten] at hp
      obtain ⟨l, hl, hpl⟩ := hp
      rw [(List.mem_replicate.1 hl).2] at hpl
      simp [tour] at hpl
      rw [hpl]
    rcases List.mem_cons.1 hp with h | h
    · rw [h]
    · exact this k p h
  obtain ⟨e, fin, oc', log, c1, c2, c3, c4, c5, c6, c7, c8⟩ := C74_descent_partial flipOp flipStart svd svd1 hsvd hsvd1 hg.fit hg.closed ⟨rfl, rfl⟩
    flip_herm (by simp [flipStart]) (by simp [flipStart]) 0 (by simp [flipStart]) hg.canon hg.norm (.ok (onesLike [1, 1, 1])) above 100000
    maxIt hmax hreg
  rw [flipStart_energy] at c5
  exact ⟨e, fin, oc', log, c1, c3, c4, c6 (-1) flip_bound, c5⟩

/-- The hypotheses of C72 are met with a site on each side of the pair: the two-site tensor of a product state of four sites. -/
example : ∃ (pre post : List (Blk ℝ)) (A B : Blk ℝ), Linked 3 ((pre ++ A :: B :: post).map Blk.dims) ∧ pre.length = 1 ∧ post.length = 1 ∧
    (∀ X ∈ pre, LeftOrth X) ∧ (∀ X ∈ post, RightOrth X) := by
  refine ⟨[⟨[1, 2, 1], fun o => if o.getD 1 0 = 0 then 1 else 0⟩], [⟨[1, 2, 1], fun o => if o.getD 1 0 = 0 then 1 else 0⟩],
    ⟨[1, 2, 2], fun o => o.getD 1 0 + o.getD 2 0⟩, ⟨[2, 2, 1], fun o => o.getD 0 0 * 3⟩, ⟨by simp, fun i s s' h1 h2 => ?_⟩, rfl, rfl, ?_, ?_⟩
  · match i, h1, h2 with
    | 0, h1, h2 => cases h1; cases h2; rfl
    | 1, h1, h2 => cases h1; cases h2; rfl
    | 2, h1, h2 => cases h1; cases h2; rfl
    | 3, h1, h2 => cases h2
    | _ + 4, h1, h2 => cases h1
  · intro X hX a b ha hb
    rw [List.mem_singleton.1 hX] at ha hb ⊢
    simp at ha hb
    subst ha hb
    simp
  · intro X hX a b ha hb
    rw [List.mem_singleton.1 hX] at ha hb ⊢
    simp at ha hb
    subst ha hb
    simp

end DM
end QuantiT
