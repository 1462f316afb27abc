import Verif.Lemmas.Gather
import Verif.Lemmas.Dense
import Verif.Model.Tensordot
import Mathlib.Algebra.BigOperators.Group.List.Basic
/-
Row-major positions, and sums over the elements of a block tensor.
-/
set_option linter.unusedSectionVars false
namespace QuantiT.BT
open QuantiT.Spec
variable {G R : Type}

theorem flat_lt {is ns : List Nat} (h : InRange is ns) : flat ns is < ns.prod := by
  induction h with
  | nil => simp [flat]
  | @cons i n is ns hi hr ih =>
    simp only [flat, List.prod_cons]
    have : (i + 1) * ns.prod ≤ n * ns.prod := Nat.mul_le_mul_right _ hi
    rw [Nat.add_mul] at this
    omega

theorem unflat_flat {is ns : List Nat} (h : InRange is ns) : unflat ns (flat ns is) = is := by
  induction h with
  | nil => rfl
  | @cons i n is ns hi hr ih =>
    have hlt := flat_lt hr
    simp only [flat, unflat]
    rw [Nat.mul_comm i, Nat.mul_add_div (by omega), Nat.mul_add_mod, Nat.mod_eq_of_lt hlt, Nat.div_eq_of_lt hlt, ih]
    simp

theorem unflat_inRange {ns : List Nat} {k : Nat} (h : k < ns.prod) : InRange (unflat ns k) ns := by
  induction ns generalizing k with
  | nil => exact .nil
  | cons n ns ih =>
    rw [List.prod_cons] at h
    have hp : 0 < ns.prod := by
      rcases Nat.eq_zero_or_pos ns.prod with h0 | h0
      · rw [h0] at h; omega
      · exact h0
    exact .cons ((Nat.div_lt_iff_lt_mul hp).mpr h) (ih (Nat.mod_lt _ hp))

theorem flat_unflat {ns : List Nat} {k : Nat} (h : k < ns.prod) : flat ns (unflat ns k) = k := by
  induction ns generalizing k with
  | nil => simp at h; simp [flat, unflat, h]
  | cons n ns ih =>
    rw [List.prod_cons] at h
    have hp : 0 < ns.prod := by
      rcases Nat.eq_zero_or_pos ns.prod with h0 | h0
      · rw [h0] at h; omega
      · exact h0
    simp only [flat, unflat]
    rw [ih (Nat.mod_lt _ hp), Nat.mul_comm, Nat.div_add_mod]

theorem flat_append {n1 n2 i1 i2 : List Nat} (h : i1.length = n1.length) :
    flat (n1 ++ n2) (i1 ++ i2) = flat n1 i1 * n2.prod + flat n2 i2 := by
  induction n1 generalizing i1 with
  | nil => cases i1 <;> simp_all [flat]
  | cons n n1 ih =>
    cases i1 with
    | nil => simp at h
    | cons i i1 =>
      simp only [List.cons_append, flat, List.prod_append, ih (by simpa using h)]
      rw [Nat.add_mul, Nat.mul_assoc, Nat.add_assoc]

theorem unflat_append {n1 n2 : List Nat} {k1 k2 : Nat} (h2 : k2 < n2.prod) :
    unflat (n1 ++ n2) (k1 * n2.prod + k2) = unflat n1 k1 ++ unflat n2 k2 ∨ n1 = [] := by
  induction n1 generalizing k1 with
  | nil => exact .inr rfl
  | cons n n1 ih =>
    left
    simp only [List.cons_append, unflat, List.prod_append]
    have e1 : (k1 * n2.prod + k2) / (n1.prod * n2.prod) = k1 / n1.prod := by
      rw [Nat.mul_comm n1.prod, ← Nat.div_div_eq_div_mul, Nat.mul_comm k1, Nat.mul_add_div (by omega),
        Nat.div_eq_of_lt h2, Nat.add_zero]
    have e2 : (k1 * n2.prod + k2) % (n1.prod * n2.prod) = (k1 % n1.prod) * n2.prod + k2 := by
      rw [Nat.mul_comm n1.prod, Nat.mod_mul, Nat.mul_comm k1, Nat.mul_add_mod, Nat.mod_eq_of_lt h2,
        Nat.mul_add_div (by omega), Nat.div_eq_of_lt h2, Nat.add_zero, Nat.mul_comm (k1 % n1.prod)]
      omega
    rw [e1, e2]
    rcases ih (k1 := k1 % n1.prod) with h | h
    · rw [h]
    · subst h
      simp [unflat, Nat.mod_one]

theorem unflat_append_flat {n1 n2 i1 i2 : List Nat} (h1 : InRange i1 n1) (h2 : InRange i2 n2) :
    unflat (n1 ++ n2) (flat n1 i1 * n2.prod + flat n2 i2) = i1 ++ i2 := by
  rw [← flat_append (List.Forall₂.length_eq h1)]
  exact unflat_flat (List.rel_append h1 h2)

/-! ### Multi-indices in row-major order -/

theorem mem_allIdx : ∀ {dims o : List Nat}, o ∈ allIdx dims ↔ InRange o dims
  | [], o => by simp [allIdx, InRange]
  | n :: ns, [] => by simp [allIdx, InRange]
  | n :: ns, i :: is => by
    have := mem_allIdx (dims := ns) (o := is)
    simp only [InRange] at this ⊢
    simp [allIdx, this]

theorem range_mul (n P : Nat) : List.range (n * P) = (List.range n).flatMap fun i => (List.range P).map (i * P + ·) := by
  induction n with
  | zero => simp
  | succ n ih => rw [Nat.add_mul, Nat.one_mul, List.range_add, ih, List.range_succ, List.flatMap_append]; simp

theorem allIdx_eq (dims : List Nat) : allIdx dims = (List.range dims.prod).map (unflat dims) := by
  induction dims with
  | nil => rfl
  | cons n ns ih =>
    rw [List.prod_cons, range_mul, List.map_flatMap, allIdx, ih]
    congr 1
    funext i
    rw [List.map_map, List.map_map]
    apply List.map_congr_left
    intro k hk
    have hk : k < ns.prod := List.mem_range.mp hk
    simp only [Function.comp, unflat]
    rw [Nat.mul_comm i, Nat.mul_add_div (by omega), Nat.mul_add_mod, Nat.mod_eq_of_lt hk, Nat.div_eq_of_lt hk]
    simp

theorem allIdx_length (dims : List Nat) : (allIdx dims).length = dims.prod := by
  rw [allIdx_eq]; simp

theorem allIdx_nodup (dims : List Nat) : (allIdx dims).Nodup := by
  rw [allIdx_eq]
  refine List.Nodup.map_on ?_ List.nodup_range
  intro x hx y hy h
  rw [← flat_unflat (List.mem_range.mp hx), h, flat_unflat (List.mem_range.mp hy)]

/-! ### Sums -/

section sums
variable [AddCommMonoid R]

theorem sum_flatMap {α β : Type} (l : List α) (f : α → List β) (g : β → R) :
    ((l.flatMap f).map g).sum = (l.map fun x => ((f x).map g).sum).sum := by
  induction l with
  | nil => rfl
  | cons a l ih => simp [List.flatMap_cons, ih]

theorem sum_map_add' {α : Type} (l : List α) (f g : α → R) :
    (l.map fun x => f x + g x).sum = (l.map f).sum + (l.map g).sum := by
  induction l with
  | nil => simp
  | cons a l ih => simp only [List.map_cons, List.sum_cons, ih]; rw [add_add_add_comm]

theorem sum_map_zero' {α : Type} (l : List α) : (l.map fun _ => (0 : R)).sum = 0 := by
  induction l with
  | nil => rfl
  | cons a l ih => simp

theorem sum_congr' {α : Type} {l : List α} {f g : α → R} (h : ∀ x ∈ l, f x = g x) : (l.map f).sum = (l.map g).sum := by
  rw [List.map_congr_left h]

theorem sum_comm' {α β : Type} (l : List α) (m : List β) (f : α → β → R) :
    (l.map fun x => (m.map fun y => f x y).sum).sum = (m.map fun y => (l.map fun x => f x y).sum).sum := by
  induction l with
  | nil => simp [sum_map_zero']
  | cons a l ih => simp only [List.map_cons, List.sum_cons, ih, sum_map_add']

/-- Size of section `s` of a dimension. -/
def secSize (d : Dim G) (s : Nat) : Nat := (d[s]?.map Prod.fst).getD 0

theorem map_locate (d : Dim G) : (List.range (dimSize d)).map (locate d) =
    (List.range d.length).flatMap fun s => (List.range (secSize d s)).map fun o => some (s, o) := by
  induction d with
  | nil => simp [dimSize]
  | cons s d ih =>
    rw [dimSize_cons, List.range_add, List.map_append, List.length_cons, List.range_succ_eq_map, List.flatMap_cons]
    congr 1
    · simp only [secSize, List.getElem?_cons_zero, Option.map_some, Option.getD_some]
      apply List.map_congr_left
      intro e he
      simp only [locate, if_pos (List.mem_range.mp he)]
    · rw [List.map_map, List.flatMap_map]
      have h1 : (locate (s :: d) ∘ fun x => s.1 + x) = fun e => (locate d e).map fun p => (p.1 + 1, p.2) := by
        funext e
        simp only [Function.comp, locate, if_neg (show ¬ s.1 + e < s.1 by omega), Nat.add_sub_cancel_left]
      rw [h1, ← Function.comp_def (fun q : Option (Nat × Nat) => q.map fun p => (p.1 + 1, p.2)) (locate d), ← List.map_map,
        ih, List.map_flatMap]
      congr 1
      funext k
      simp [secSize, Function.comp_def]

/-- Sizes of the block at grid position `z`. -/
def secSizes : Shape G → List Nat → List Nat
  | d :: ds, b :: bs => secSize d b :: secSizes ds bs
  | _, _ => []

theorem secSizes_eq : ∀ {shape : Shape G} {z secs}, sections shape z = some secs → secSizes shape z = secs.map Prod.fst
  | [], [], secs, h => by simp [sections] at h; subst h; rfl
  | [], _ :: _, _, h => by simp [sections] at h
  | _ :: _, [], _, h => by simp [sections] at h
  | d :: ds, b :: bs, secs, h => by
    obtain ⟨s, r, h1, h2, rfl⟩ := sections_cons.mp h
    simp [secSizes, secSize, h1, secSizes_eq h2]

/-- Position of a multi-index from the positions of its first component and of the rest. -/
def comb : Option (Nat × Nat) → Option (List Nat × List Nat) → Option (List Nat × List Nat)
  | some p, some q => some (p.1 :: q.1, p.2 :: q.2)
  | _, _ => none

theorem locateAll_comb (d : Dim G) (ds : Shape G) (e : Nat) (es : List Nat) :
    locateAll (d :: ds) (e :: es) = comb (locate d e) (locateAll ds es) := by
  simp only [locateAll]
  rcases locate d e with _ | p <;> rcases locateAll ds es with _ | q <;> rfl

/-- A sum over all elements of a shape is a sum over its grid positions and the offsets inside. -/
theorem sum_locateAll : ∀ (shape : Shape G) (F : Option (List Nat × List Nat) → R),
    ((allIdx (shape.map dimSize)).map fun e => F (locateAll shape e)).sum =
      ((allIdx (secCounts shape)).map fun z => ((allIdx (secSizes shape z)).map fun o => F (some (z, o))).sum).sum
  | [], F => by simp [allIdx, secCounts, secSizes, locateAll]
  | d :: ds, F => by
    simp only [List.map_cons, allIdx, secCounts, sum_flatMap, List.map_map]
    -- the sum over the element of the first dimension
    generalize hP : (fun p => ((allIdx (secCounts ds)).map fun z => ((allIdx (secSizes ds z)).map fun o =>
          F (comb p (some (z, o)))).sum).sum) = P
    have hF : ∀ e, ((allIdx (ds.map dimSize)).map ((fun e => F (locateAll (d :: ds) e)) ∘ fun x => e :: x)).sum =
        (P ∘ locate d) e := by
      intro e
      have := sum_locateAll ds fun q => F (comb (locate d e) q)
      simp only [Function.comp_def, locateAll_comb, ← hP]
      exact this
    rw [sum_congr' (fun e _ => hF e), ← List.map_map, map_locate, sum_flatMap]
    apply sum_congr'
    intro s _
    rw [List.map_map]
    simp only [Function.comp_def, ← hP]
    rw [sum_comm']
    apply sum_congr'
    intro z _
    simp only [secSizes, allIdx, sum_flatMap, List.map_map, Function.comp_def, comb]

/-- A sum over grid positions of what a list with distinct keys inside the grid stores there. -/
theorem sum_lookup {V : Type} {Z : List (List Nat)} (hZ : Z.Nodup) (ψ : List Nat → V → R) : ∀ {A : List (List Nat × V)},
    (A.map Prod.fst).Nodup → (∀ x ∈ A, x.1 ∈ Z) →
    (Z.map fun z => match lookup A z with | some a => ψ z a | none => 0).sum = (A.map fun x => ψ x.1 x.2).sum
  | [], _, _ => by simp [lookup_nil, sum_map_zero']
  | (z0, a0) :: A, hn, hm => by
    simp only [List.map_cons, List.nodup_cons] at hn
    have ih := sum_lookup hZ ψ hn.2 (fun x hx => hm x (by simp [hx]))
    have hnone : lookup A z0 = none := by
      rw [lookup_eq_none]
      intro x hx he
      exact hn.1 (List.mem_map.mpr ⟨x, hx, he⟩)
    have h1 : ∀ z ∈ Z, (match lookup ((z0, a0) :: A) z with | some a => ψ z a | none => 0) =
        (if z = z0 then ψ z0 a0 else 0) + (match lookup A z with | some a => ψ z a | none => 0) := by
      intro z _
      rw [lookup_cons]
      by_cases hz : z = z0
      · subst hz; simp [hnone]
      · rw [if_neg (Ne.symm hz), if_neg hz]; simp
    rw [sum_congr' h1, sum_map_add', ih, List.map_cons, List.sum_cons]
    congr 1
    have hz0 := hm (z0, a0) (by simp)
    simp only at hz0
    clear ih h1 hm
    induction Z with
    | nil => simp at hz0
    | cons z Z ihZ =>
      obtain ⟨hz, hZ'⟩ := List.nodup_cons.mp hZ
      rw [List.map_cons, List.sum_cons]
      by_cases he : z = z0
      · subst he
        have : (Z.map fun x => if x = z then ψ z a0 else 0).sum = 0 := by
          rw [sum_congr' (g := fun _ => 0), sum_map_zero']
          intro x hx
          rw [if_neg]; rintro rfl; exact hz hx
        simp [this]
      · rw [if_neg he, zero_add]
        exact ihZ hZ' (by simpa [Ne.symm he] using hz0)

end sums

end QuantiT.BT
