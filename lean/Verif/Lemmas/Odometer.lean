import Verif.Model.BTensor
import Mathlib.Data.List.Forall2
import Mathlib.Logic.Function.Iterate
import Mathlib.Data.Nat.ModEq
import Mathlib.Tactic.Ring
/-
The block odometer counts in mixed radix, least significant digit first.
-/
namespace QuantiT.BT
open QuantiT.Spec

/-- Digits of `k` in mixed radix `ns`. -/
def unrank : List Nat → Nat → List Nat
  | [], _ => []
  | n :: ns, k => k % n :: unrank ns (k / n)

/-- Value of a digit list. -/
def rank : List Nat → List Nat → Nat
  | n :: ns, i :: is => i + n * rank ns is
  | _, _ => 0

theorem unrank_length (ns : List Nat) (k : Nat) : (unrank ns k).length = ns.length := by
  induction ns generalizing k with
  | nil => rfl
  | cons n ns ih => simp [unrank, ih]

theorem incr_false (ns is : List Nat) : incr ns is false = is := by
  induction ns generalizing is with
  | nil => rfl
  | cons n ns ih => cases is <;> simp [incr, ih]

theorem incr_unrank {ns : List Nat} (h : ∀ n ∈ ns, 0 < n) (k : Nat) :
    incr ns (unrank ns k) true = unrank ns (k + 1) := by
  induction ns generalizing k with
  | nil => rfl
  | cons n ns ih =>
    have hn : 0 < n := h n (by simp)
    have hns : ∀ m ∈ ns, 0 < m := fun m hm => h m (by simp [hm])
    have hk : k % n < n := Nat.mod_lt _ hn
    have hdm := Nat.div_add_mod k n
    by_cases hc : k % n + 1 < n
    · have h1 : (k + 1) % n = k % n + 1 := by
        conv_lhs => rw [← hdm]
        rw [Nat.add_assoc, Nat.mul_add_mod, Nat.mod_eq_of_lt hc]
      have h2 : (k + 1) / n = k / n := by
        conv_lhs => rw [← hdm]
        rw [Nat.add_assoc, Nat.mul_add_div hn, Nat.div_eq_of_lt hc, Nat.add_zero]
      simp [unrank, incr, hc, h1, h2, incr_false]
    · have he : k % n + 1 = n := by omega
      have h1 : (k + 1) % n = 0 := by
        conv_lhs => rw [← hdm]
        rw [Nat.add_assoc, Nat.mul_add_mod, he, Nat.mod_self]
      have h2 : (k + 1) / n = k / n + 1 := by
        conv_lhs => rw [← hdm]
        rw [Nat.add_assoc, Nat.mul_add_div hn, he, Nat.div_self hn]
      simp [unrank, incr, hc, h1, h2, ih hns]

theorem unrank_zero (ns : List Nat) : unrank ns 0 = List.replicate ns.length 0 := by
  induction ns with
  | nil => rfl
  | cons n ns ih => simp [unrank, ih, List.replicate_succ]

theorem incr_iterate {ns : List Nat} (h : ∀ n ∈ ns, 0 < n) (k : Nat) :
    (fun i => incr ns i true)^[k] (List.replicate ns.length 0) = unrank ns k := by
  induction k with
  | zero => simp [unrank_zero]
  | succ k ih => rw [Function.iterate_succ_apply', ih, incr_unrank h]

theorem unrank_prod {ns : List Nat} (h : ∀ n ∈ ns, 0 < n) (k : Nat) :
    unrank ns (k + ns.prod) = unrank ns k := by
  induction ns generalizing k with
  | nil => rfl
  | cons n ns ih =>
    have hn : 0 < n := h n (by simp)
    have hns : ∀ m ∈ ns, 0 < m := fun m hm => h m (by simp [hm])
    simp only [unrank, List.prod_cons, Nat.add_mul_mod_self_left, List.cons.injEq, true_and]
    rw [Nat.add_mul_div_left _ _ hn, ih hns]

theorem prod_pos {ns : List Nat} (h : ∀ n ∈ ns, 0 < n) : 0 < ns.prod := by
  induction ns with
  | nil => simp
  | cons n ns ih =>
    rw [List.prod_cons]
    exact Nat.mul_pos (h n (by simp)) (ih fun m hm => h m (by simp [hm]))

theorem unrank_inRange {ns : List Nat} (h : ∀ n ∈ ns, 0 < n) (k : Nat) : InRange (unrank ns k) ns := by
  induction ns generalizing k with
  | nil => exact .nil
  | cons n ns ih =>
    exact .cons (Nat.mod_lt _ (h n (by simp))) (ih (fun m hm => h m (by simp [hm])) _)

theorem rank_lt {is ns : List Nat} (h : InRange is ns) : rank ns is < ns.prod := by
  induction h with
  | nil => simp [rank]
  | @cons i n is ns hi hr ih =>
    simp only [rank, List.prod_cons]
    calc i + n * rank ns is < n + n * rank ns is := by omega
      _ = n * (rank ns is + 1) := by ring
      _ ≤ n * ns.prod := Nat.mul_le_mul_left _ ih

theorem unrank_rank {is ns : List Nat} (h : InRange is ns) : unrank ns (rank ns is) = is := by
  induction h with
  | nil => rfl
  | @cons i n is ns hi hr ih =>
    have hn : 0 < n := by omega
    simp [rank, unrank, Nat.add_mul_mod_self_left, Nat.mod_eq_of_lt hi, Nat.add_mul_div_left _ _ hn,
      Nat.div_eq_of_lt hi, ih]

theorem rank_unrank {ns : List Nat} (h : ∀ n ∈ ns, 0 < n) {k : Nat} (hk : k < ns.prod) :
    rank ns (unrank ns k) = k := by
  induction ns generalizing k with
  | nil => simp at hk; simp [rank, unrank, hk]
  | cons n ns ih =>
    have hn : 0 < n := h n (by simp)
    have hns : ∀ m ∈ ns, 0 < m := fun m hm => h m (by simp [hm])
    rw [List.prod_cons] at hk
    simp only [unrank, rank]
    rw [ih hns (Nat.div_lt_of_lt_mul hk)]
    exact Nat.mod_add_div k n

theorem pos_of_inRange {is ns : List Nat} (h : InRange is ns) : ∀ n ∈ ns, 0 < n := by
  induction h with
  | nil => simp
  | @cons i n is ns hi hr ih =>
    intro m hm
    rcases List.mem_cons.mp hm with rfl | hm
    · omega
    · exact ih m hm

theorem rank_zero (ns : List Nat) (m : Nat) : rank ns (List.replicate m 0) = 0 := by
  induction ns generalizing m with
  | nil => simp [rank]
  | cons n ns ih => cases m <;> simp [rank, List.replicate_succ, ih]

theorem any_ne_zero_iff {is : List Nat} : is.any (fun x => decide (x ≠ 0)) = false ↔ is = List.replicate is.length 0 := by
  induction is with
  | nil => simp
  | cons i is ih =>
    rw [List.any_cons, Bool.or_eq_false_iff, ih]
    simp [List.replicate_succ]

theorem unrank_any {ns : List Nat} (h : ∀ n ∈ ns, 0 < n) {k : Nat} (hk : k < ns.prod) :
    (unrank ns k).any (fun x => decide (x ≠ 0)) = decide (k ≠ 0) := by
  by_cases h0 : k = 0
  · subst h0
    have := any_ne_zero_iff (is := unrank ns 0)
    rw [this.mpr (by rw [unrank_length, unrank_zero])]; simp
  · have hne : ¬ (unrank ns k).any (fun x => decide (x ≠ 0)) = false := by
      intro hf
      have he := any_ne_zero_iff.mp hf
      have := congrArg (rank ns) he
      rw [rank_unrank h hk, rank_zero] at this
      exact h0 this
    simp only [Bool.not_eq_false] at hne
    rw [hne]; simp [h0]

end QuantiT.BT
