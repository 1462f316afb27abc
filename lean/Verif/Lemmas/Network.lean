import Verif.Model.Network
import Mathlib.Algebra.BigOperators.Ring.Finset
import Mathlib.Algebra.BigOperators.Intervals
import Mathlib.Algebra.Star.BigOperators
import Mathlib.Data.List.GetD
import Mathlib.Tactic.Ring
/-
Lemmas about contractions of dense chains.
-/
namespace QuantiT
namespace MP
open Finset Spec
variable {R : Type}

/-! ### Sums over configurations -/

theorem mem_indices : ∀ {ds o : List Nat}, o ∈ indices ds ↔ InRange o ds
  | [], o => by simp only [indices, List.mem_singleton]; constructor
                · rintro rfl; exact List.Forall₂.nil
                · intro h; cases h; rfl
  | n :: ns, o => by
    simp only [indices, List.mem_flatMap, List.mem_range, List.mem_map]
    constructor
    · rintro ⟨i, hi, x, hx, rfl⟩
      exact List.Forall₂.cons hi (mem_indices.1 hx)
    · intro h
      cases h with
      | cons h1 h2 => exact ⟨_, h1, _, mem_indices.2 h2, rfl⟩

theorem mem_configs {ds o : List Nat} : o ∈ configs ds ↔ InRange o ds := by
  rw [configs, List.mem_toFinset, mem_indices]

theorem configs_nil : configs [] = {[]} := rfl

theorem sum_configs_cons [AddCommMonoid R] (n : Nat) (ns : List Nat) (f : List Nat → R) :
    ∑ σ ∈ configs (n :: ns), f σ = ∑ p ∈ range n ×ˢ configs ns, f (p.1 :: p.2) := by
  symm
  apply Finset.sum_bij (fun p _ => p.1 :: p.2)
  · rintro ⟨i, x⟩ h
    rw [Finset.mem_product, mem_range, mem_configs] at h
    exact mem_configs.2 (List.Forall₂.cons h.1 h.2)
  · rintro ⟨i, x⟩ _ ⟨j, y⟩ _ h
    simp only [List.cons.injEq] at h
    exact Prod.ext h.1 h.2
  · intro σ h
    rw [mem_configs] at h
    cases h with
    | cons h1 h2 => exact ⟨(_, _), by rw [Finset.mem_product, mem_range, mem_configs]; exact ⟨h1, h2⟩, rfl⟩
  · intros; rfl

theorem sum_configs_cons' [AddCommMonoid R] (n : Nat) (ns : List Nat) (f : List Nat → R) :
    ∑ σ ∈ configs (n :: ns), f σ = ∑ i ∈ range n, ∑ x ∈ configs ns, f (i :: x) := by
  rw [sum_configs_cons, sum_product]

theorem sum_configs_nil [AddCommMonoid R] (f : List Nat → R) : ∑ σ ∈ configs [], f σ = f [] := by
  rw [configs_nil, sum_singleton]

theorem inRange_append_iff {o ds es : List Nat} (h : InRange o (ds ++ es)) :
    ∃ x y, o = x ++ y ∧ InRange x ds ∧ InRange y es := by
  induction ds generalizing o with
  | nil => exact ⟨[], o, rfl, List.Forall₂.nil, h⟩
  | cons d ds ih =>
    cases h with
    | cons h1 h2 =>
      obtain ⟨x, y, rfl, hx, hy⟩ := ih h2
      exact ⟨_ :: x, y, rfl, List.Forall₂.cons h1 hx, hy⟩

theorem sum_configs_append [AddCommMonoid R] (ds es : List Nat) (f : List Nat → R) :
    ∑ σ ∈ configs (ds ++ es), f σ = ∑ p ∈ configs ds ×ˢ configs es, f (p.1 ++ p.2) := by
  symm
  apply Finset.sum_bij (fun p _ => p.1 ++ p.2)
  · rintro ⟨x, y⟩ h
    rw [Finset.mem_product, mem_configs, mem_configs] at h
    exact mem_configs.2 (List.rel_append h.1 h.2)
  · rintro ⟨x, y⟩ hx ⟨x', y'⟩ hx' h
    rw [Finset.mem_product, mem_configs, mem_configs] at hx hx'
    have hl : x.length = x'.length := hx.1.length_eq.trans hx'.1.length_eq.symm
    obtain ⟨h1, h2⟩ := List.append_inj h hl
    exact Prod.ext h1 h2
  · intro σ h
    obtain ⟨x, y, rfl, hx, hy⟩ := inRange_append_iff (mem_configs.1 h)
    exact ⟨(x, y), by rw [Finset.mem_product, mem_configs, mem_configs]; exact ⟨hx, hy⟩, rfl⟩
  · intros; rfl

/-! ### Kernels of layers -/

/-- Indices of the three bonds cut between two sites: ket, operator, bra. -/
abbrev Cut := Nat × Nat × Nat

/-- All cuts below the given sizes. -/
def cuts (n m p : Nat) : Finset Cut := range n ×ˢ range m ×ˢ range p

theorem sum_cuts [AddCommMonoid R] (n m p : Nat) (f : Cut → R) :
    ∑ X ∈ cuts n m p, f X = ∑ l ∈ range n, ∑ w ∈ range m, ∑ l' ∈ range p, f (l, w, l') := by
  rw [cuts, sum_product]
  exact sum_congr rfl fun l _ => by rw [sum_product]

variable [CommSemiring R] [StarRing R]

/-- Sum over the configurations of a layer of ket × operator × conjugate of bra. -/
def kern {ι κ : Type} (S : Finset ι) (S' : Finset κ) (f : ι → Nat → Nat → R) (g : κ → ι → Nat → Nat → R)
    (h : κ → Nat → Nat → R) (X Y : Cut) : R :=
  ∑ s ∈ S, ∑ s' ∈ S', f s X.1 Y.1 * g s' s X.2.1 Y.2.1 * star (h s' X.2.2 Y.2.2)

/-- Two layers one after the other. -/
theorem kern_comp {ι κ ι' κ' : Type} (S : Finset ι) (S' : Finset κ) (T : Finset ι') (T' : Finset κ')
    (f : ι → Nat → Nat → R) (g : κ → ι → Nat → Nat → R) (h : κ → Nat → Nat → R)
    (f2 : ι' → Nat → Nat → R) (g2 : κ' → ι' → Nat → Nat → R) (h2 : κ' → Nat → Nat → R) (n m p : Nat) (X Z : Cut) :
    kern (S ×ˢ T) (S' ×ˢ T') (fun s l r => ∑ k ∈ range n, f s.1 l k * f2 s.2 k r)
      (fun s' s l r => ∑ k ∈ range m, g s'.1 s.1 l k * g2 s'.2 s.2 k r)
      (fun s' l r => ∑ k ∈ range p, h s'.1 l k * h2 s'.2 k r) X Z
      = ∑ Y ∈ cuts n m p, kern S S' f g h X Y * kern T T' f2 g2 h2 Y Z := by
  unfold kern
  have key : ∀ (s : ι × ι') (s' : κ × κ'),
      (∑ k ∈ range n, f s.1 X.1 k * f2 s.2 k Z.1) * (∑ k ∈ range m, g s'.1 s.1 X.2.1 k * g2 s'.2 s.2 k Z.2.1)
        * star (∑ k ∈ range p, h s'.1 X.2.2 k * h2 s'.2 k Z.2.2)
      = ∑ Y ∈ cuts n m p, (f s.1 X.1 Y.1 * g s'.1 s.1 X.2.1 Y.2.1 * star (h s'.1 X.2.2 Y.2.2))
          * (f2 s.2 Y.1 Z.1 * g2 s'.2 s.2 Y.2.1 Z.2.1 * star (h2 s'.2 Y.2.2 Z.2.2)) := by
    intro s s'
    rw [sum_cuts, star_sum, mul_assoc, sum_mul_sum, sum_mul_sum]
    refine sum_congr rfl fun k _ => ?_
    refine sum_congr rfl fun k2 _ => ?_
    rw [mul_sum]
    refine sum_congr rfl fun k3 _ => ?_
    rw [star_mul']
    ring
  simp only [key]
  have hR : ∀ Y : Cut, (∑ s ∈ S, ∑ s' ∈ S', f s X.1 Y.1 * g s' s X.2.1 Y.2.1 * star (h s' X.2.2 Y.2.2))
      * (∑ s ∈ T, ∑ s' ∈ T', f2 s Y.1 Z.1 * g2 s' s Y.2.1 Z.2.1 * star (h2 s' Y.2.2 Z.2.2))
      = ∑ s ∈ S ×ˢ T, ∑ s' ∈ S' ×ˢ T', (f s.1 X.1 Y.1 * g s'.1 s.1 X.2.1 Y.2.1 * star (h s'.1 X.2.2 Y.2.2))
          * (f2 s.2 Y.1 Z.1 * g2 s'.2 s.2 Y.2.1 Z.2.1 * star (h2 s'.2 Y.2.2 Z.2.2)) := by
    intro Y
    rw [sum_mul_sum, sum_product]
    refine sum_congr rfl fun s _ => sum_congr rfl fun t _ => ?_
    rw [sum_mul_sum, sum_product]
  simp only [hR]
  symm
  rw [sum_comm]
  refine sum_congr rfl fun s _ => ?_
  rw [sum_comm]

/-! ### Chains -/

omit [CommSemiring R] [StarRing R] in
theorem rightEnd_cons {A B : Blk R} {a : List (Blk R)} : rightEnd (A :: B :: a) = rightEnd (B :: a) := by
  simp [rightEnd, List.getLast?_cons_cons]

theorem amp_append : ∀ (a a' : List (Blk R)) (σ σ' : List Nat) (l r : Nat), a ≠ [] → σ.length = a.length →
    amp (a ++ a') (σ ++ σ') l r = ∑ k ∈ range (rightEnd a), amp a σ l k * amp a' σ' k r
  | [], _, _, _, _, _, h, _ => absurd rfl h
  | [A], a', [c], σ', l, r, _, _ => by
    simp only [List.cons_append, List.nil_append, amp, rightEnd, List.getLast?_singleton]
    refine sum_congr rfl fun k hk => ?_
    congr 1
    rw [sum_eq_single k]
    · simp
    · intro j _ hj; simp [hj]
    · intro h; exact absurd hk h
  | A :: B :: a, a', c :: d :: σ, σ', l, r, _, hl => by
    have ih := fun k => amp_append (B :: a) a' (d :: σ) σ' k r (by simp) (by simpa using hl)
    show amp (A :: ((B :: a) ++ a')) (c :: ((d :: σ) ++ σ')) l r = _
    rw [amp, rightEnd_cons]
    simp only [ih]
    have e : ∀ k, amp (A :: B :: a) (c :: d :: σ) l k = ∑ j ∈ range (A.dims.getD 2 0), A.f [l, c, j] * amp (B :: a) (d :: σ) j k :=
      fun k => by rw [amp]
    simp only [e, mul_sum, sum_mul]
    rw [sum_comm]
    refine sum_congr rfl fun j _ => sum_congr rfl fun k _ => ?_
    rw [mul_assoc]

omit [StarRing R] in
theorem opEntry_cons (W : Blk R) (Ws : List (Blk R)) (t s : Nat) (τ σ : List Nat) (l r : Nat) :
    opEntry (W :: Ws) (t :: τ) (s :: σ) l r = ∑ k ∈ range (W.dims.getD 2 0), W.f [l, t, k, s] * opEntry Ws τ σ k r := rfl

theorem opEntry_append : ∀ (a a' : List (Blk R)) (τ σ τ' σ' : List Nat) (l r : Nat), a ≠ [] → τ.length = a.length →
    σ.length = a.length →
    opEntry (a ++ a') (τ ++ τ') (σ ++ σ') l r = ∑ k ∈ range (rightEnd a), opEntry a τ σ l k * opEntry a' τ' σ' k r
  | [], _, _, _, _, _, _, _, h, _, _ => absurd rfl h
  | [A], a', [t], [c], τ', σ', l, r, _, _, _ => by
    simp only [List.cons_append, List.nil_append, opEntry_cons, rightEnd, List.getLast?_singleton]
    refine sum_congr rfl fun k hk => ?_
    congr 1
    rw [sum_eq_single k]
    · simp [opEntry, mpoEntry]
    · intro j _ hj; simp [hj, opEntry, mpoEntry]
    · intro h; exact absurd hk h
  | A :: B :: a, a', t :: u :: τ, c :: d :: σ, τ', σ', l, r, _, hl, hm => by
    have ih := fun k => opEntry_append (B :: a) a' (u :: τ) (d :: σ) τ' σ' k r (by simp) (by simpa using hl) (by simpa using hm)
    show opEntry (A :: ((B :: a) ++ a')) (t :: ((u :: τ) ++ τ')) (c :: ((d :: σ) ++ σ')) l r = _
    rw [opEntry_cons, rightEnd_cons]
    simp only [ih]
    simp only [opEntry_cons A (B :: a), mul_sum, sum_mul]
    rw [sum_comm]
    refine sum_congr rfl fun j _ => sum_congr rfl fun k _ => ?_
    rw [mul_assoc]

/-- The sandwich of a chain as a kernel. -/
def chainKern (a Ws b : List (Blk R)) (X Z : Cut) : R :=
  kern (configs (phys a)) (configs (phys b)) (amp a) (opEntry Ws) (amp b) X Z

theorem chainKern_eq (a Ws b : List (Blk R)) (X Z : Cut) :
    chainKern a Ws b X Z = sandwich a Ws b X.1 X.2.1 X.2.2 Z.1 Z.2.1 Z.2.2 := rfl

/-- The kernel of one site. -/
def siteKern (A W B : Blk R) (X Y : Cut) : R :=
  kern (range (A.dims.getD 1 0)) (range (B.dims.getD 1 0)) (fun s l r => A.f [l, s, r]) (fun t s l r => W.f [l, t, r, s])
    (fun s l r => B.f [l, s, r]) X Y

theorem chainKern_nil (X Z : Cut) : chainKern ([] : List (Blk R)) [] [] X Z = if X = Z then 1 else 0 := by
  obtain ⟨x1, x2, x3⟩ := X
  obtain ⟨z1, z2, z3⟩ := Z
  simp only [chainKern, kern, phys, List.map_nil, sum_configs_nil, amp, opEntry, mpoEntry, Prod.mk.injEq]
  by_cases h1 : x1 = z1 <;> by_cases h2 : x2 = z2 <;> by_cases h3 : x3 = z3 <;> simp [h1, h2, h3]

theorem kern_congr {ι κ : Type} {S : Finset ι} {S' : Finset κ} {f f' : ι → Nat → Nat → R} {g g' : κ → ι → Nat → Nat → R}
    {h h' : κ → Nat → Nat → R} {X Y : Cut} (hf : ∀ s ∈ S, f s X.1 Y.1 = f' s X.1 Y.1)
    (hg : ∀ s ∈ S, ∀ s' ∈ S', g s' s X.2.1 Y.2.1 = g' s' s X.2.1 Y.2.1) (hh : ∀ s' ∈ S', h s' X.2.2 Y.2.2 = h' s' X.2.2 Y.2.2) :
    kern S S' f g h X Y = kern S S' f' g' h' X Y :=
  sum_congr rfl fun s hs => sum_congr rfl fun s' hs' => by rw [hf s hs, hg s hs s' hs', hh s' hs']

theorem chainKern_cons (A W B : Blk R) (a Ws b : List (Blk R)) (X Z : Cut) :
    chainKern (A :: a) (W :: Ws) (B :: b) X Z
      = ∑ Y ∈ cuts (A.dims.getD 2 0) (W.dims.getD 2 0) (B.dims.getD 2 0), siteKern A W B X Y * chainKern a Ws b Y Z := by
  simp only [siteKern, chainKern]
  rw [← kern_comp]
  simp only [kern, phys, List.map_cons, sum_configs_cons]
  rfl

theorem chainKern_append (a Ws b a' Ws' b' : List (Blk R)) (ha : a ≠ []) (hW : Ws.length = a.length)
    (hb : b.length = a.length) (X Z : Cut) :
    chainKern (a ++ a') (Ws ++ Ws') (b ++ b') X Z
      = ∑ Y ∈ cuts (rightEnd a) (rightEnd Ws) (rightEnd b), chainKern a Ws b X Y * chainKern a' Ws' b' Y Z := by
  have hl : ∀ {s : List (Blk R)} {σ : List Nat}, σ ∈ configs (phys s) → σ.length = s.length := by
    intro s σ h
    rw [(mem_configs.1 h).length_eq]; simp [phys]
  have hbn : b ≠ [] := by intro h; rw [h] at hb; exact ha (List.length_eq_zero_iff.1 hb.symm)
  have hWn : Ws ≠ [] := by intro h; rw [h] at hW; exact ha (List.length_eq_zero_iff.1 hW.symm)
  simp only [chainKern]
  rw [← kern_comp]
  simp only [kern, phys, List.map_append, sum_configs_append]
  refine sum_congr rfl fun s hs => sum_congr rfl fun s' hs' => ?_
  rw [Finset.mem_product] at hs hs'
  rw [amp_append a a' _ _ _ _ ha (hl hs.1), amp_append b b' _ _ _ _ hbn (hl hs'.1),
    opEntry_append Ws Ws' _ _ _ _ _ _ hWn ((hl hs'.1).trans (by omega)) ((hl hs.1).trans (by omega))]

end MP
end QuantiT
