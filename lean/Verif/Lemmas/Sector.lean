import Verif.Spec.Sector
import Verif.Lemmas.BlockEdges
import Verif.Lemmas.BlockNetwork2
/-
The charges of the configurations of a block state.
-/
namespace QuantiT.BN
open Spec BT MP Finset
variable {G R : Type} [AddCommGroup G] [DecidableEq G]

theorem entry_charge [Semiring R] {t : BT G R} (hc : Conserving t.shape t.rule t.blocks) {e : List Nat} (h : entry t.shape t.blocks e ≠ 0) :
    (List.zipWith chargeAt t.shape e).sum = t.rule := by
  unfold entry at h
  cases hl : locateAll t.shape e with
  | none => rw [hl] at h; exact absurd rfl h
  | some p =>
    rw [hl] at h
    simp only at h
    cases hb : lookup t.blocks p.1 with
    | none => rw [hb] at h; exact absurd rfl h
    | some b =>
      obtain ⟨secs, q1, q2, q3⟩ := hc.block _ _ ((lookup_iff_mem hc.sorted).1 hb)
      exact (allowed_iff_chargeAt hl t.rule).1 ⟨secs, q1, q2⟩

theorem amp_charge [Semiring R] : ∀ (s : List (BT G R)), s ≠ [] → Chained 3 s → ∀ (σ : List Nat) (a b : Nat), σ.length = s.length →
    amp (s.map denseOf) σ a b ≠ 0 →
    chargeAt (leftDim s) a + configCharge (s.map fun t => t.shape.getD 1 []) σ + chargeAt (rightDim s) b = (s.map BT.rule).sum
  | [], h, _, _, _, _, _, _ => absurd rfl h
  | A :: s, _, hc, [], _, _, hl, _ => by simp at hl
  | A :: s, _, hc, c :: σ, a, b, hl, hn => by
    obtain ⟨⟨hA, hA0⟩, hA3⟩ := hc.1 A (by simp)
    obtain ⟨x, y, z, hs⟩ : ∃ x y z, A.shape = [x, y, z] := by
      match h : A.shape, hA3 with
      | [x, y, z], _ => exact ⟨x, y, z, rfl⟩
    simp only [List.map_cons, amp] at hn
    obtain ⟨k, hk, hne⟩ := Finset.exists_ne_zero_of_sum_ne_zero hn
    have h1 : entry A.shape A.blocks [a, c, k] ≠ 0 := fun e => hne (by show entry A.shape A.blocks [a, c, k] * _ = 0; rw [e, zero_mul])
    have h2 : amp (s.map denseOf) σ k b ≠ 0 := fun e => hne (by rw [e, mul_zero])
    have e1 := entry_charge hA h1
    rw [hs] at e1
    simp only [List.zipWith_cons_cons, List.zipWith_nil_left, List.sum_cons, List.sum_nil, add_zero] at e1
    have hsh : ∀ i, A.shape.getD i [] = [x, y, z].getD i [] := fun i => by rw [hs]
    cases s with
    | nil =>
      have hσ : σ = [] := by simpa using hl
      subst hσ
      have hkb : k = b := by
        simp only [List.map_nil, amp] at h2
        by_contra hcon
        exact h2 (if_neg hcon)
      subst hkb
      simp only [leftDim, rightDim, List.head?_cons, List.getLast?_singleton, hsh, configCharge, List.map_cons, List.map_nil, List.zipWith_cons_cons,
        List.zipWith_nil_left, List.sum_cons, List.sum_nil, add_zero, List.getD_cons_zero, List.getD_cons_succ]
      rw [← e1]; abel
    | cons B s =>
      have hc' : Chained 3 (B :: s) := ⟨fun t ht => hc.1 t (by simp [ht]), fun i t t' h h' => hc.2 (i + 1) t t' (by simpa using h) (by simpa using h')⟩
      have ih := amp_charge (B :: s) (by simp) hc' σ k b (by simpa using hl) h2
      have hop := hc.2 0 A B rfl rfl
      have hcb : chargeAt (leftDim (B :: s)) k = -chargeAt z k := by
        rw [← chargeAt_flipped]
        have := opposite_eq hop
        rw [hsh] at this
        simp only [leftDim, List.head?_cons, this]
        rfl
      rw [hcb] at ih
      have hr : rightDim (A :: B :: s) = rightDim (B :: s) := by simp [rightDim]
      rw [hr, show ((A :: B :: s).map BT.rule).sum = A.rule + ((B :: s).map BT.rule).sum from rfl, ← ih, ← e1]
      simp only [leftDim, List.head?_cons, hsh, configCharge, List.map_cons, List.zipWith_cons_cons, List.sum_cons, List.getD_cons_zero, List.getD_cons_succ]
      abel

end QuantiT.BN
