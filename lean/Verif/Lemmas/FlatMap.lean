import Verif.Model.FlatMap
import Verif.Spec.FlatMap
import Mathlib.Tactic.Order
set_option linter.unusedSectionVars false
namespace QuantiT
open Spec
variable {K V : Type _} [LinearOrder K]

/-! ### lookup and sortedness -/

theorem lookup_nil (k : K) : lookup ([] : FM K V) k = none := rfl

theorem lookup_cons (e : K × V) (m : FM K V) (k : K) :
    lookup (e :: m) k = if e.1 = k then some e.2 else lookup m k := by
  unfold lookup
  by_cases h : e.1 = k <;> simp [h]

theorem lookup_append (a b : FM K V) (k : K) :
    lookup (a ++ b) k = (lookup a k).or (lookup b k) := by
  unfold lookup
  rw [List.find?_append]
  cases List.find? (fun e => decide (e.1 = k)) a <;> simp

theorem lookup_eq_none {m : FM K V} {k : K} : lookup m k = none ↔ ∀ e ∈ m, e.1 ≠ k := by
  simp [lookup]

theorem lookup_none_of_lt {m : FM K V} {k : K} (h : ∀ e ∈ m, e.1 < k) : lookup m k = none :=
  lookup_eq_none.mpr fun e he => by have := h e he; order

theorem lookup_none_of_gt {m : FM K V} {k : K} (h : ∀ e ∈ m, k < e.1) : lookup m k = none :=
  lookup_eq_none.mpr fun e he => by have := h e he; order

theorem mem_of_lookup {m : FM K V} {k : K} {v : V} (h : lookup m k = some v) : (k, v) ∈ m := by
  unfold lookup at h
  simp only [Option.map_eq_some_iff] at h
  obtain ⟨e, he, rfl⟩ := h
  have h1 := List.find?_some he
  simp only [decide_eq_true_eq] at h1
  subst h1; exact List.mem_of_find?_eq_some he

theorem lookup_of_mem {m : FM K V} {e : K × V} (hs : Sorted m) (h : e ∈ m) : lookup m e.1 = some e.2 := by
  induction m with
  | nil => simp at h
  | cons x m ih =>
    rw [Sorted, List.pairwise_cons] at hs
    rw [lookup_cons]
    rcases List.mem_cons.mp h with rfl | h
    · simp
    · have := hs.1 e h
      rw [if_neg (by intro; order)]; exact ih hs.2 h

theorem lookup_isSome_iff {m : FM K V} {k : K} : (∃ v, lookup m k = some v) ↔ ∃ e ∈ m, e.1 = k := by
  constructor
  · rintro ⟨v, hv⟩; exact ⟨_, mem_of_lookup hv, rfl⟩
  · rintro ⟨e, he, rfl⟩
    by_contra h
    have : lookup m e.1 = none := by
      cases hl : lookup m e.1 with
      | none => rfl
      | some v => exact absurd ⟨v, hl⟩ h
    exact lookup_eq_none.mp this e he rfl

theorem sorted_append {a b : FM K V} :
    Sorted (a ++ b) ↔ Sorted a ∧ Sorted b ∧ ∀ x ∈ a, ∀ y ∈ b, x.1 < y.1 := List.pairwise_append

theorem sorted_cons {x : K × V} {b : FM K V} : Sorted (x :: b) ↔ (∀ y ∈ b, x.1 < y.1) ∧ Sorted b :=
  List.pairwise_cons

theorem sorted_nil : Sorted ([] : FM K V) := List.Pairwise.nil

/-- Two strictly sorted lists standing for the same partial function are equal. -/
theorem sorted_ext : ∀ {a b : FM K V}, Sorted a → Sorted b → (∀ k, lookup a k = lookup b k) → a = b
  | [], [], _, _, _ => rfl
  | [], y :: b, _, _, h => by have := h y.1; simp [lookup_nil, lookup_cons] at this
  | x :: a, [], _, _, h => by have := h x.1; simp [lookup_nil, lookup_cons] at this
  | x :: a, y :: b, ha, hb, h => by
    rw [sorted_cons] at ha hb
    have hxy : x.1 = y.1 := by
      rcases lt_trichotomy x.1 y.1 with hlt | heq | hlt
      · have h1 := h x.1
        rw [lookup_cons, if_pos rfl, lookup_cons, if_neg (by intro; order)] at h1
        have := hb.1 _ (mem_of_lookup h1.symm)
        simp only at this; order
      · exact heq
      · have h1 := h y.1
        rw [lookup_cons y b, if_pos rfl, lookup_cons, if_neg (by intro; order)] at h1
        have := ha.1 _ (mem_of_lookup h1)
        simp only at this; order
    have hv := h x.1
    rw [lookup_cons, if_pos rfl, lookup_cons, if_pos hxy.symm] at hv
    have hx : x = y := Prod.ext hxy (Option.some.inj hv)
    subst hx
    congr 1
    apply sorted_ext ha.2 hb.2
    intro k
    have hk := h k
    rw [lookup_cons, lookup_cons] at hk
    by_cases hkx : x.1 = k
    · subst hkx; rw [lookup_none_of_gt ha.1, lookup_none_of_gt hb.1]
    · rwa [if_neg hkx, if_neg hkx] at hk

namespace FM

/-! ### lower_bound -/

theorem lowerBound_append {A B : FM K V} {k : K} (hA : ∀ a ∈ A, a.1 < k) (hB : ∀ b ∈ B.head?, k ≤ b.1) :
    lowerBound (A ++ B) k = A.length := by
  unfold lowerBound
  rw [List.takeWhile_append_of_pos (by simpa using hA)]
  cases B with
  | nil => simp
  | cons b B =>
    have : k ≤ b.1 := hB b (by simp)
    rw [List.takeWhile_cons_of_neg (by simp; exact this)]; simp

/-- Splitting a sorted container at the lower bound of a key. -/
theorem split_lb {m : FM K V} (hs : Sorted m) (k : K) :
    ∃ A B, m = A ++ B ∧ lowerBound m k = A.length ∧ (∀ a ∈ A, a.1 < k) ∧ (∀ b ∈ B, k ≤ b.1) ∧
      Sorted A ∧ Sorted B := by
  have hA : ∀ a ∈ m.takeWhile (fun e => decide (e.1 < k)), a.1 < k := by
    intro a ha; simpa using List.all_eq_true.mp (List.all_takeWhile (p := fun e : K × V => decide (e.1 < k)) (l := m)) a ha
  have hm : m = m.takeWhile (fun e => decide (e.1 < k)) ++ m.dropWhile (fun e => decide (e.1 < k)) :=
    List.takeWhile_append_dropWhile.symm
  have hs' := hs
  rw [hm, sorted_append] at hs'
  refine ⟨_, _, hm, rfl, hA, ?_, hs'.1, hs'.2.1⟩
  generalize hB : m.dropWhile (fun e => decide (e.1 < k)) = B at *
  cases B with
  | nil => simp
  | cons b B =>
    have hb : k ≤ b.1 := by
      have := List.head_dropWhile_not (fun e : K × V => decide (e.1 < k)) (l := m) (by simp [hB])
      simp only [hB, List.head_cons, decide_eq_false_iff_not, not_lt] at this; exact this
    intro x hx
    rcases List.mem_cons.mp hx with rfl | hx
    · exact hb
    · have := (sorted_cons.mp hs'.2.1).1 x hx; order

/-- As `split_lb`, with the case distinction every method makes. -/
theorem split_cases {m : FM K V} (hs : Sorted m) (k : K) :
    ∃ A, (∀ a ∈ A, a.1 < k) ∧ Sorted A ∧ lowerBound m k = A.length ∧
      (m = A ∨ (∃ b B, m = A ++ b :: B ∧ k < b.1 ∧ (∀ x ∈ B, b.1 < x.1) ∧ Sorted B) ∨
       (∃ v B, m = A ++ (k, v) :: B ∧ (∀ x ∈ B, k < x.1) ∧ Sorted B)) := by
  obtain ⟨A, B, hm, hl, hA, hB, hsA, hsB⟩ := split_lb hs k
  refine ⟨A, hA, hsA, hl, ?_⟩
  cases B with
  | nil => left; simpa using hm
  | cons b B =>
    right
    have hb := hB b (by simp)
    rw [sorted_cons] at hsB
    rcases lt_or_eq_of_le hb with h | h
    · left; exact ⟨b, B, hm, h, hsB.1, hsB.2⟩
    · right; subst h; exact ⟨b.2, B, hm, hsB.1, hsB.2⟩

theorem insertAt_append (A B : FM K V) (x : K × V) : insertAt (A ++ B) A.length x = A ++ x :: B := by
  simp [insertAt]

theorem sorted_insert {A B : FM K V} {k : K} {v : V} (hA : ∀ a ∈ A, a.1 < k) (hB : ∀ b ∈ B, k < b.1)
    (h1 : Sorted A) (h2 : Sorted B) : Sorted (A ++ (k, v) :: B) := by
  rw [sorted_append, sorted_cons]
  refine ⟨h1, ⟨hB, h2⟩, ?_⟩
  intro x hx y hy
  have hxk := hA x hx
  rcases List.mem_cons.mp hy with rfl | hy
  · exact hxk
  · have := hB y hy; order

theorem lookup_insert {A B : FM K V} {k : K} {v : V} (hA : ∀ a ∈ A, a.1 < k) (hB : ∀ b ∈ B, k < b.1) :
    lookup (A ++ (k, v) :: B) = update (lookup (A ++ B)) k (some v) := by
  funext x
  simp only [update, lookup_append, lookup_cons]
  by_cases h : x = k
  · subst h; simp [lookup_none_of_lt hA]
  · simp [h, Ne.symm h]

theorem update_same {M : K → Option V} {k : K} {v : Option V} (h : M k = v) : update M k v = M := by
  funext x; unfold update; split
  · subst_vars; rfl
  · rfl

theorem lookup_mid {A B : FM K V} {k : K} {v : V} (hA : ∀ a ∈ A, a.1 < k) :
    lookup (A ++ (k, v) :: B) k = some v := by
  rw [lookup_append, lookup_none_of_lt hA, lookup_cons]; simp

theorem gt_of_chain {b : K × V} {B : FM K V} {k : K} (h : k < b.1) (hB : ∀ x ∈ B, b.1 < x.1) :
    ∀ x ∈ b :: B, k < x.1 := by
  intro x hx
  rcases List.mem_cons.mp hx with rfl | hx
  · exact h
  · have := hB x hx; order

theorem getElem?_mid (A B : FM K V) (b : K × V) : (A ++ b :: B)[A.length]? = some b := by simp

end FM
end QuantiT
