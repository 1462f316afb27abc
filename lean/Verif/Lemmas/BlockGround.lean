import Verif.Spec.BlockGround
import Verif.Lemmas.Ground
import Verif.Lemmas.Sector
/-
The charges of operators, and the lowest energy of a charge.
-/
namespace QuantiT.BN
open Spec BT MP Finset Matrix
variable {G 𝕜 : Type} [RCLike 𝕜]

section
variable {R : Type} [AddCommGroup G] [DecidableEq G]

theorem mpo_charge [Semiring R] (ph : Dim G) : ∀ (Ws : List (BT G R)), Ws ≠ [] → Chained 4 Ws →
    (∀ W ∈ Ws, W.rule = 0 ∧ W.shape.getD 1 [] = ph ∧ W.shape.getD 3 [] = flipped ph) → ∀ (τ σ : Nat → Nat) (a b : Nat),
    mpoEntry (Ws.map denseOf) τ σ a b ≠ 0 →
    chargeAt (leftDim Ws) a + ∑ i ∈ range Ws.length, chargeAt ph (τ i) + chargeAt (rightDim Ws) b = ∑ i ∈ range Ws.length, chargeAt ph (σ i)
  | [], h, _, _, _, _, _, _, _ => absurd rfl h
  | A :: s, _, hc, ho, τ, σ, a, b, hn => by
    obtain ⟨⟨hA, hA0⟩, hA3⟩ := hc.1 A (by simp)
    obtain ⟨o1, o2, o3⟩ := ho A (by simp)
    obtain ⟨x, y, z, w, hs⟩ : ∃ x y z w, A.shape = [x, y, z, w] := by
      match h : A.shape, hA3 with
      | [x, y, z, w], _ => exact ⟨x, y, z, w, rfl⟩
    rw [hs] at o2 o3
    simp only [List.getD_cons_zero, List.getD_cons_succ] at o2 o3
    subst o2 o3
    simp only [List.map_cons, mpoEntry] at hn
    obtain ⟨k, hk, hne⟩ := Finset.exists_ne_zero_of_sum_ne_zero hn
    have h1 : entry A.shape A.blocks [a, τ 0, k, σ 0] ≠ 0 := fun e => hne (by show entry A.shape A.blocks [a, τ 0, k, σ 0] * _ = 0; rw [e, zero_mul])
    have h2 : mpoEntry (s.map denseOf) (fun j => τ (j + 1)) (fun j => σ (j + 1)) k b ≠ 0 := fun e => hne (by rw [e, mul_zero])
    have e1 := entry_charge hA h1
    rw [hs, o1] at e1
    simp only [List.zipWith_cons_cons, List.zipWith_nil_left, List.sum_cons, List.sum_nil, add_zero, chargeAt_flipped] at e1
    have hsh : ∀ i, A.shape.getD i [] = [x, y, z, flipped y].getD i [] := fun i => by rw [hs]
    cases s with
    | nil =>
      have hkb : k = b := by
        simp only [List.map_nil, mpoEntry] at h2
        by_contra hcon
        exact h2 (if_neg hcon)
      subst hkb
      simp only [leftDim, rightDim, List.head?_cons, List.getLast?_singleton, hsh, List.length_singleton, sum_range_one, List.getD_cons_zero, List.getD_cons_succ]
      rw [← sub_eq_zero, ← e1]; abel
    | cons B s =>
      have hc' : Chained 4 (B :: s) := ⟨fun t ht => hc.1 t (by simp [ht]), fun i t t' h h' => hc.2 (i + 1) t t' (by simpa using h) (by simpa using h')⟩
      have ih := mpo_charge y (B :: s) (by simp) hc' (fun W hW => ho W (by simp [hW])) _ _ k b h2
      have hop := hc.2 0 A B rfl rfl
      have hcb : chargeAt (leftDim (B :: s)) k = -chargeAt z k := by
        rw [← chargeAt_flipped]
        have := opposite_eq hop
        rw [hsh] at this
        simp only [leftDim, List.head?_cons, this]
        rfl
      rw [hcb] at ih
      have hr : rightDim (A :: B :: s) = rightDim (B :: s) := by simp [rightDim]
      rw [hr, show (A :: B :: s).length = (B :: s).length + 1 from rfl, sum_range_succ', sum_range_succ', ← ih]
      simp only [leftDim, List.head?_cons, hsh, List.getD_cons_zero]
      rw [← sub_eq_zero, ← e1]
      abel

theorem extend_charge (ph : Dim G) {L d : Nat} (σ : Fin L → Fin d) : ∑ i ∈ range L, chargeAt ph (extend σ i) = totalCharge ph σ := by
  unfold totalCharge
  rw [← Fin.sum_univ_eq_sum_range]
  refine sum_congr rfl fun i _ => ?_
  rw [extend, dif_pos i.2]

theorem configCharge_ofFn (ph : Dim G) {L d : Nat} (σ : Fin L → Fin d) :
    configCharge (List.replicate L ph) (List.ofFn fun i => (σ i).val) = totalCharge ph σ := by
  unfold configCharge totalCharge
  rw [← List.sum_ofFn]
  congr 1
  refine List.ext_getElem (by simp) fun i h1 h2 => ?_
  simp

end

/-! ### The lowest energy of a charge -/

variable [AddCommGroup G]

/-- The entries between configurations of charge `q`. -/
def sectorMatrix (ph : Dim G) (q : G) {L d : Nat} (H : Matrix (Fin L → Fin d) (Fin L → Fin d) 𝕜) :
    Matrix {σ : Fin L → Fin d // totalCharge ph σ = q} {σ : Fin L → Fin d // totalCharge ph σ = q} 𝕜 := fun τ σ => H τ.1 σ.1

theorem sum_sector {M : Type} [AddCommMonoid M] (ph : Dim G) (q : G) {L d : Nat} [Fintype {σ : Fin L → Fin d // totalCharge ph σ = q}]
    (f : (Fin L → Fin d) → M) (hf : ∀ σ, totalCharge ph σ ≠ q → f σ = 0) :
    ∑ σ, f σ = ∑ σ : {σ : Fin L → Fin d // totalCharge ph σ = q}, f σ.1 := by
  classical
  rw [← sum_filter_add_sum_filter_not univ (fun σ => totalCharge ph σ = q) f,
    sum_eq_zero (s := univ.filter fun σ => ¬ totalCharge ph σ = q) (fun σ h => hf σ (by simpa using h)), add_zero]
  exact sum_subtype _ (by simp) f

theorem sector_mul {ph : Dim G} {q : G} {L d : Nat} [Fintype {σ : Fin L → Fin d // totalCharge ph σ = q}]
    (H : Matrix (Fin L → Fin d) (Fin L → Fin d) 𝕜) {u : (Fin L → Fin d) → 𝕜} (hu : OfCharge ph q u)
    (σ : {σ : Fin L → Fin d // totalCharge ph σ = q}) : (H *ᵥ u) σ.1 = (sectorMatrix ph q H *ᵥ fun τ => u τ.1) σ := by
  simp only [mulVec, dotProduct]
  exact sum_sector ph q (fun τ => H σ.1 τ * u τ) fun τ hτ => by
    rw [not_imp_comm.1 (hu τ) hτ, mul_zero]

theorem sector_out {ph : Dim G} {q : G} {L d : Nat} {H : Matrix (Fin L → Fin d) (Fin L → Fin d) 𝕜} (hk : KeepsCharge ph H)
    {u : (Fin L → Fin d) → 𝕜} (hu : OfCharge ph q u) : OfCharge ph q (H *ᵥ u) := by
  intro σ hσ
  obtain ⟨τ, -, hτ⟩ := exists_ne_zero_of_sum_ne_zero hσ
  have h1 : H σ τ ≠ 0 := fun e => hτ (by show H σ τ * u τ = 0; rw [e, zero_mul])
  have h2 : u τ ≠ 0 := fun e => hτ (by rw [e, mul_zero])
  exact (hk σ τ h1).trans (hu τ h2)

theorem sector_herm {ph : Dim G} {q : G} {L d : Nat} {H : Matrix (Fin L → Fin d) (Fin L → Fin d) 𝕜} (hH : H.IsHermitian) :
    (sectorMatrix ph q H).IsHermitian := by
  ext τ σ
  exact congrFun (congrFun hH τ.1) σ.1

theorem lowestIn_iff {ph : Dim G} {q : G} {L d : Nat} [Fintype {σ : Fin L → Fin d // totalCharge ph σ = q}]
    {H : Matrix (Fin L → Fin d) (Fin L → Fin d) 𝕜} (hk : KeepsCharge ph H) {E : ℝ} :
    LowestIn ph q H E ↔ Lowest (sectorMatrix ph q H) E := by
  classical
  let up : ({σ : Fin L → Fin d // totalCharge ph σ = q} → 𝕜) → (Fin L → Fin d) → 𝕜 := fun w σ => if h : totalCharge ph σ = q then w ⟨σ, h⟩ else 0
  have hup : ∀ w, OfCharge ph q (up w) := by
    intro w σ h
    by_contra hc
    exact h (dif_neg hc)
  have upv : ∀ w (σ : {σ : Fin L → Fin d // totalCharge ph σ = q}), up w σ.1 = w σ := fun w σ => dif_pos σ.2
  have down : ∀ u : (Fin L → Fin d) → 𝕜, OfCharge ph q u → u ≠ 0 → (fun σ : {σ : Fin L → Fin d // totalCharge ph σ = q} => u σ.1) ≠ 0 := by
    intro u hu hu0 h
    apply hu0
    funext σ
    by_contra hc
    exact hc (congrFun h ⟨σ, hu σ hc⟩)
  have downx : ∀ (x : ℝ) (u : (Fin L → Fin d) → 𝕜), OfCharge ph q u → H *ᵥ u = (x : 𝕜) • u →
      sectorMatrix ph q H *ᵥ (fun σ => u σ.1) = (x : 𝕜) • fun σ => u σ.1 := by
    intro x u hu hx
    funext σ
    rw [← sector_mul H hu σ, hx]
    rfl
  have up0 : ∀ w, w ≠ 0 → up w ≠ 0 := by
    intro w hw h
    apply hw
    funext σ
    rw [← upv w σ, h]
    rfl
  have upx : ∀ (x : ℝ) w, sectorMatrix ph q H *ᵥ w = (x : 𝕜) • w → H *ᵥ up w = (x : 𝕜) • up w := by
    intro x w hx
    funext σ
    by_cases hc : totalCharge ph σ = q
    · have h1 := sector_mul H (hup w) ⟨σ, hc⟩
      have h2 : (fun τ : {σ : Fin L → Fin d // totalCharge ph σ = q} => up w τ.1) = w := funext fun τ => upv w τ
      rw [h2, hx] at h1
      rw [h1]
      show _ = (x : 𝕜) • up w σ
      rw [show up w σ = w ⟨σ, hc⟩ from dif_pos hc]
      rfl
    · rw [not_imp_comm.1 (sector_out hk (hup w) σ) hc]
      show _ = (x : 𝕜) • up w σ
      rw [show up w σ = 0 from dif_neg hc, smul_zero]
  constructor
  · rintro ⟨⟨u, hu0, hu, hx⟩, h2⟩
    exact ⟨⟨_, down u hu hu0, downx E u hu hx⟩, fun x w hw hx => h2 x (up w) (up0 w hw) (hup w) (upx x w hx)⟩
  · rintro ⟨⟨w, hw, hx⟩, h2⟩
    exact ⟨⟨up w, up0 w hw, hup w, upx E w hx⟩, fun x u hu0 hu hx => h2 x _ (down u hu hu0) (downx x u hu hx)⟩

/-- The variational principle for the states of one charge. -/
theorem lowestIn_le {ph : Dim G} {q : G} {L d : Nat} {H : Matrix (Fin L → Fin d) (Fin L → Fin d) 𝕜} (hH : H.IsHermitian) (hk : KeepsCharge ph H)
    {E : ℝ} (hE : LowestIn ph q H E) (v : (Fin L → Fin d) → 𝕜) (hv : OfCharge ph q v) : E * ∑ i, ‖v i‖ ^ 2 ≤ expectation H v := by
  classical
  have h := DM.lowest_le (sector_herm hH) ((lowestIn_iff hk).1 hE) (fun σ => v σ.1)
  have e2 : expectation H v = expectation (sectorMatrix ph q H) fun σ => v σ.1 := by
    unfold expectation
    congr 1
    simp only [dotProduct, Pi.star_apply]
    rw [sum_sector ph q (fun σ => star (v σ) * (H *ᵥ v) σ) fun σ hσ => by rw [not_imp_comm.1 (hv σ) hσ, star_zero, zero_mul]]
    exact sum_congr rfl fun σ _ => by rw [sector_mul H hv σ]
  rw [e2, sum_sector ph q (fun σ => ‖v σ‖ ^ 2) fun σ hσ => by rw [not_imp_comm.1 (hv σ) hσ]; simp]
  exact h

/-- Every charge that some configuration has, has a lowest energy. -/
theorem lowestIn_exists {ph : Dim G} {q : G} {L d : Nat} {H : Matrix (Fin L → Fin d) (Fin L → Fin d) 𝕜} (hH : H.IsHermitian) (hk : KeepsCharge ph H)
    {σ : Fin L → Fin d} (hσ : totalCharge ph σ = q) : ∃ E, LowestIn ph q H E := by
  classical
  have : Nonempty {σ : Fin L → Fin d // totalCharge ph σ = q} := ⟨⟨σ, hσ⟩⟩
  obtain ⟨E, hE⟩ := DM.lowest_exists (sector_herm (q := q) (ph := ph) hH)
  exact ⟨E, (lowestIn_iff hk).2 hE⟩

end QuantiT.BN
