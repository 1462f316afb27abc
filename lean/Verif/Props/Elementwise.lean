import Verif.Props.Broadcast
import Verif.Lemmas.Compare
import Verif.Lemmas.BlockDmrg5
import Verif.Model.Elementwise
/-
C99: functions of the elements and comparisons.
-/
namespace QuantiT
namespace BT
open Spec
variable {G R : Type}

theorem truth_eq_bit [Zero R] [One R] (p : Prop) [Decidable p] : truth p = (bit p : R) := by
  unfold truth bit; congr

theorem held_map {S : Type} (g : R → S) (t : BT G R) (e : List Nat) :
    Held (mapBlocks g t).shape (mapBlocks g t).blocks e ↔ Held t.shape t.blocks e := by
  unfold Held mapBlocks
  constructor
  · rintro ⟨k, o, b, h1, h2⟩
    obtain ⟨⟨k', b'⟩, h3, h4⟩ := List.mem_map.1 h2
    obtain ⟨rfl, rfl⟩ := Prod.mk.inj h4
    exact ⟨k', o, b', h1, h3⟩
  · rintro ⟨k, o, b, h1, h2⟩
    exact ⟨k, o, _, h1, List.mem_map.2 ⟨_, h2, rfl⟩⟩

/-- A function of the stored elements: applied where a block is stored, and zero elsewhere. -/
theorem map_held {S : Type} [Zero R] [Zero S] (g : R → S) {t : BT G R} (hs : Sorted t.blocks) {e : List Nat}
    (he : Held t.shape t.blocks e) :
    entry (mapBlocks g t).shape (mapBlocks g t).blocks e = g (entry t.shape t.blocks e) := by
  obtain ⟨k, o, b, h1, h2⟩ := he
  have h3 := (lookup_iff_mem hs).2 h2
  unfold entry mapBlocks
  simp only [h1]
  rw [FM.lookup_map_snd (g := fun b : Blk R => (⟨b.dims, fun o => g (b.f o)⟩ : Blk S)), h3]
  rfl

section
variable [AddCommGroup G] [DecidableEq G]

theorem map_pointwise {S : Type} [Zero R] [Zero S] (g : R → S) (h0 : g 0 = 0) {t : BT G R}
    (ht : Conserving t.shape t.rule t.blocks) :
    Pointwise g t.shape t.rule t.blocks (mapBlocks g t).shape (mapBlocks g t).rule (mapBlocks g t).blocks := by
  refine ⟨rfl, rfl, BN.conserving_mapBlocks g ht, fun e _ => ?_⟩
  by_cases h : Held t.shape t.blocks e
  · exact map_held g ht.sorted h
  · rw [entry_not_held h, entry_not_held (fun h' => h ((held_map g t e).1 h')), h0]

/-- **C99**: comparing a tensor with a number keeps shape and rule; where a block is stored the result is the comparison of the
element, and it is false at every other element. -/
theorem C99_compare_number_partial [LinearOrder R] [Zero R] [One R] (c : Cmp) (t : BT G R) (ht : Conserving t.shape t.rule t.blocks)
    (x : R) :
    (cmpNum c t x).shape = t.shape ∧ (cmpNum c t x).rule = t.rule ∧
    Conserving (cmpNum c t x).shape (cmpNum c t x).rule (cmpNum c t x).blocks ∧
    ∀ e, (Held t.shape t.blocks e → entry (cmpNum c t x).shape (cmpNum c t x).blocks e = truth (c.Holds (entry t.shape t.blocks e) x)) ∧
      (¬ Held t.shape t.blocks e → entry (cmpNum c t x).shape (cmpNum c t x).blocks e = 0) := by
  have key : ∀ g : R → R, (∀ y, g y = truth (c.Holds y x)) → cmpNum c t x = mapBlocks g t →
      (cmpNum c t x).shape = t.shape ∧ (cmpNum c t x).rule = t.rule ∧
      Conserving (cmpNum c t x).shape (cmpNum c t x).rule (cmpNum c t x).blocks ∧
      ∀ e, (Held t.shape t.blocks e → entry (cmpNum c t x).shape (cmpNum c t x).blocks e = truth (c.Holds (entry t.shape t.blocks e) x)) ∧
        (¬ Held t.shape t.blocks e → entry (cmpNum c t x).shape (cmpNum c t x).blocks e = 0) := by
    intro g hg h
    rw [h]
    refine ⟨rfl, rfl, BN.conserving_mapBlocks g ht, fun e => ⟨fun he => ?_, fun he => ?_⟩⟩
    · rw [map_held g ht.sorted he, hg]
    · exact entry_not_held fun h' => he ((held_map g t e).1 h')
  cases c
  · exact key (fun y => bit (y ≤ x)) (fun y => (truth_eq_bit (y ≤ x)).symm) rfl
  · exact key (fun y => bit (y ≥ x)) (fun y => (truth_eq_bit (y ≥ x)).symm) rfl
  · exact key (fun y => bit (y = x)) (fun y => (truth_eq_bit (y = x)).symm) rfl
  · exact key (fun y => bit (y < x)) (fun y => (truth_eq_bit (y < x)).symm) rfl
  · exact key (fun y => bit (y ≠ x)) (fun y => (truth_eq_bit (y ≠ x)).symm) rfl
  · exact key (fun y => bit (y > x)) (fun y => (truth_eq_bit (y > x)).symm) rfl

/-- **C99**: comparing with a number is right at every element exactly if every element is in a stored block, or the comparison is
false of zero.  So `t.le(x)`, `t.ge(x)` and `t.eq(x)` are wrong at the elements that the selection rule forbids whenever zero
satisfies them. -/
theorem C99_compare_number_fails [LinearOrder R] [Zero R] [One R] [NeZero (1 : R)] (c : Cmp) (t : BT G R)
    (ht : Conserving t.shape t.rule t.blocks) (x : R) :
    (∀ e, InRange e (t.shape.map dimSize) →
      entry (cmpNum c t x).shape (cmpNum c t x).blocks e = truth (c.Holds (entry t.shape t.blocks e) x)) ↔
    (¬ c.Holds 0 x ∨ ∀ e, InRange e (t.shape.map dimSize) → Held t.shape t.blocks e) := by
  obtain ⟨_, _, _, h⟩ := C99_compare_number_partial c t ht x
  constructor
  · intro hall
    by_cases h0 : c.Holds 0 x
    · refine Or.inr fun e he => ?_
      by_contra hn
      have h1 := hall e he
      rw [(h e).2 hn, entry_not_held hn, truth, if_pos h0] at h1
      exact zero_ne_one h1
    · exact Or.inl h0
  · intro hor e he
    by_cases hh : Held t.shape t.blocks e
    · exact (h e).1 hh
    · rcases hor with h0 | h0
      · rw [(h e).2 hh, entry_not_held hh, truth, if_neg h0]
      · exact absurd (h0 e he) hh

/-- **C99**: `sqrt`, `abs`, `pow` with a positive exponent, and the division by a number are applied to every element, in place and
out of place. -/
theorem C99_functions (t : BT G ℝ) (ht : Conserving t.shape t.rule t.blocks) (p x : ℝ) :
    Pointwise Real.sqrt t.shape t.rule t.blocks (sqrtT t).shape (sqrtT t).rule (sqrtT t).blocks ∧
    Pointwise (fun y : ℝ => |y|) t.shape t.rule t.blocks (absT t).shape (absT t).rule (absT t).blocks ∧
    (0 < p → Pointwise (fun y : ℝ => y ^ p) t.shape t.rule t.blocks (powNum t p).shape (powNum t p).rule (powNum t p).blocks) ∧
    Pointwise (fun y : ℝ => y / x) t.shape t.rule t.blocks (divNum t x).shape (divNum t x).rule (divNum t x).blocks ∧
    divNumInPlace t x = divNum t x := by
  refine ⟨map_pointwise _ (by simp) ht, map_pointwise _ (by simp) ht,
    fun hp => map_pointwise (fun y : ℝ => y ^ p) (Real.zero_rpow (ne_of_gt hp : p ≠ 0)) ht, map_pointwise _ (by simp) ht, ?_⟩
  unfold divNumInPlace divNum
  simp only [mul_one_div]

omit [AddCommGroup G] [DecidableEq G] in
/-- **C99** fails of `pow` with exponent zero: it leaves zeros, not ones, outside of the stored blocks. -/
theorem C99_pow_zero_fails (t : BT G ℝ) (e : List Nat) (he : ¬ Held t.shape t.blocks e) :
    entry (powNum t 0).shape (powNum t 0).blocks e = 0 ∧ (entry t.shape t.blocks e) ^ (0 : ℝ) = 1 :=
  ⟨entry_not_held fun h' => he ((held_map _ t e).1 h'), Real.rpow_zero _⟩

/-- **C99**: `isnan` tells which elements are not a number, at every element. -/
theorem C99_isnan [Zero R] (isnan : R → Bool) (h0 : isnan 0 = false) (t : BT G R) (ht : Conserving t.shape t.rule t.blocks) :
    Pointwise (fun y => truth (isnan y = true)) t.shape t.rule t.blocks
      (isnanT isnan t).shape (isnanT isnan t).rule (isnanT isnan t).blocks := by
  have hfold : ∀ (l : FM (List Nat) (Blk R)) (acc : FM (List Nat) (Blk Nat)), Sorted acc → Sorted l →
      let r := l.foldl (fun out kb =>
        FM.indexAssign ⟨[], fun _ => 0⟩ out kb.1 ⟨kb.2.dims, fun o => bit (isnan (kb.2.f o) = true)⟩) acc
      Sorted r ∧ ∀ k, lookup r k = ((lookup l k).map fun b => (⟨b.dims, fun o => bit (isnan (b.f o) = true)⟩ : Blk Nat)).or (lookup acc k) := by
    intro l
    induction l with
    | nil => intro acc h _; exact ⟨h, fun k => rfl⟩
    | cons kb l ih =>
      intro acc h hl
      obtain ⟨h1, h2⟩ := indexAssign_eq h ⟨[], fun _ => 0⟩ kb.1 (⟨kb.2.dims, fun o => bit (isnan (kb.2.f o) = true)⟩ : Blk Nat)
      obtain ⟨h3, h4⟩ := ih _ h1 (List.Pairwise.of_cons hl)
      refine ⟨h3, fun k => ?_⟩
      rw [List.foldl_cons, h4, h2, lookup_cons]
      by_cases hk : k = kb.1
      · subst hk
        have : lookup l kb.1 = none := by
          rcases hb : lookup l kb.1 with _ | b
          · rfl
          · have := (List.pairwise_cons.1 hl).1 _ (mem_of_lookup hb)
            exact absurd this (lt_irrefl _)
        simp [this]
      · have hk' : ¬ kb.1 = k := fun h => hk h.symm
        simp [hk, hk']
  have heq : isnanT isnan t = mapBlocks (fun y => bit (isnan y = true)) t := by
    obtain ⟨h1, h2⟩ := hfold t.blocks [] .nil ht.sorted
    unfold isnanT mapBlocks
    congr 1
    refine sorted_ext h1 (FM.sorted_map_snd (g := fun b : Blk R => (⟨b.dims, fun o => bit (isnan (b.f o) = true)⟩ : Blk Nat)) ht.sorted) fun k => ?_
    rw [h2, FM.lookup_map_snd (g := fun b : Blk R => (⟨b.dims, fun o => bit (isnan (b.f o) = true)⟩ : Blk Nat))]
    simp [lookup]
  rw [heq]
  have := map_pointwise (S := Nat) (fun y => bit (isnan y = true)) (by simp [bit, h0]) ht
  refine ⟨this.1, this.2.1, this.2.2.1, fun e he => ?_⟩
  rw [this.2.2.2 e he]
  exact (truth_eq_bit _).symm

end

/-! ### Two tensors -/

section
variable [AddCommMonoid G] [DecidableEq G]

theorem goodDims {a b : BT G R} (hna : ∀ d ∈ a.shape, d ≠ []) (hnb : ∀ d ∈ b.shape, d ≠ []) (hf : Fits a.shape b.shape)
    (hw : NoWide a.shape b.shape) : if b.shape.length ≤ a.shape.length then
        List.Forall₂ GoodDim (a.shape.drop (a.shape.length - b.shape.length)) b.shape
      else List.Forall₂ GoodDim (b.shape.drop (b.shape.length - a.shape.length)) a.shape := by
  unfold NoWide at hw
  unfold Fits at hf
  by_cases hle : b.shape.length ≤ a.shape.length
  · rw [if_pos hle] at hw ⊢
    rw [show b.shape.length - a.shape.length = 0 by omega, List.drop_zero] at hf
    exact good_of_fit hf hw (fun d hd => hna d (List.mem_of_mem_drop hd)) hnb
  · rw [if_neg hle] at hw ⊢
    rw [show a.shape.length - b.shape.length = 0 by omega, List.drop_zero] at hf
    exact good_of_fit (List.Forall₂.flip (List.Forall₂.imp (fun _ _ h => fitDim_symm h) hf)) hw
      (fun d hd => hnb d (List.mem_of_mem_drop hd)) hna

/-- **C99**: comparing two tensors, with broadcasting: the charges and selection rules add up; where both store a block the
result is the comparison of the elements, and it is false at every other element. -/
theorem C99_compare_tensors_partial [LinearOrder R] [Zero R] [One R] (c : Cmp) (a b : BT G R)
    (ha : Conserving a.shape a.rule a.blocks) (hb : Conserving b.shape b.rule b.blocks)
    (hna : ∀ d ∈ a.shape, d ≠ []) (hnb : ∀ d ∈ b.shape, d ≠ []) (hf : Fits a.shape b.shape) (hw : NoWide a.shape b.shape) :
    ∃ r, cmpT c a b = .ok r ∧ r.rule = a.rule + b.rule ∧ Conserving r.shape r.rule r.blocks ∧
      r.shape.map dimSize = bsizes (a.shape.map dimSize) (b.shape.map dimSize) ∧
      ∀ e, InRange e (r.shape.map dimSize) →
        (Held a.shape a.blocks (clip (a.shape.map dimSize) e) → Held b.shape b.blocks (clip (b.shape.map dimSize) e) →
          entry r.shape r.blocks e = truth (c.Holds (entry a.shape a.blocks (clip (a.shape.map dimSize) e))
            (entry b.shape b.blocks (clip (b.shape.map dimSize) e)))) ∧
        (¬ (Held a.shape a.blocks (clip (a.shape.map dimSize) e) ∧ Held b.shape b.blocks (clip (b.shape.map dimSize) e)) →
          entry r.shape r.blocks e = 0) := by
  have hg := goodDims hna hnb hf hw
  have key : ∀ g : R → R → R, (∀ x y, g x y = truth (c.Holds x y)) → cmpT c a b = broadcastOp g a b →
      ∃ r, cmpT c a b = .ok r ∧ r.rule = a.rule + b.rule ∧ Conserving r.shape r.rule r.blocks ∧
      r.shape.map dimSize = bsizes (a.shape.map dimSize) (b.shape.map dimSize) ∧
      ∀ e, InRange e (r.shape.map dimSize) →
        (Held a.shape a.blocks (clip (a.shape.map dimSize) e) → Held b.shape b.blocks (clip (b.shape.map dimSize) e) →
          entry r.shape r.blocks e = truth (c.Holds (entry a.shape a.blocks (clip (a.shape.map dimSize) e))
            (entry b.shape b.blocks (clip (b.shape.map dimSize) e)))) ∧
        (¬ (Held a.shape a.blocks (clip (a.shape.map dimSize) e) ∧ Held b.shape b.blocks (clip (b.shape.map dimSize) e)) →
          entry r.shape r.blocks e = 0) := by
    intro g hg' h
    rw [h]
    obtain ⟨r, h1, h2, h3, h4, h5⟩ := broadcastOp_held g a b ha hb hg hf
    exact ⟨r, h1, h2, h3, h4, fun e he => ⟨fun x y => ((h5 e he).1 x y).trans (hg' _ _), (h5 e he).2⟩⟩
  cases c
  · exact key (fun x y => bit (x ≤ y)) (fun x y => (truth_eq_bit (x ≤ y)).symm) rfl
  · exact key (fun x y => bit (x ≥ y)) (fun x y => (truth_eq_bit (x ≥ y)).symm) rfl
  · exact key (fun x y => bit (x = y)) (fun x y => (truth_eq_bit (x = y)).symm) rfl
  · exact key (fun x y => bit (x < y)) (fun x y => (truth_eq_bit (x < y)).symm) rfl
  · exact key (fun x y => bit (x ≠ y)) (fun x y => (truth_eq_bit (x ≠ y)).symm) rfl
  · exact key (fun x y => bit (x > y)) (fun x y => (truth_eq_bit (x > y)).symm) rfl

/-- **C99** fails of `eq`, `le` and `ge` of two tensors: a tensor compared with itself gives false at every element outside of its
blocks, in particular at those the selection rule forbids. -/
theorem C99_compare_tensors_fails [LinearOrder R] [Zero R] [One R] (c : Cmp) (hc : c = .eq ∨ c = .le ∨ c = .ge) (a : BT G R)
    (ha : Conserving a.shape a.rule a.blocks) (hna : ∀ d ∈ a.shape, d ≠ []) :
    ∃ r, cmpT c a a = .ok r ∧ r.shape.map dimSize = a.shape.map dimSize ∧
      ∀ e, InRange e (a.shape.map dimSize) → ¬ Held a.shape a.blocks e →
        entry r.shape r.blocks e = 0 ∧ (truth (c.Holds (entry a.shape a.blocks e) (entry a.shape a.blocks e)) : R) = 1 := by
  have hfit : Fits a.shape a.shape := by
    unfold Fits
    rw [Nat.sub_self, List.drop_zero]
    exact List.forall₂_same.2 fun d _ => Or.inl rfl
  have hwide : NoWide a.shape a.shape := by
    unfold NoWide
    rw [if_pos le_rfl, Nat.sub_self, List.drop_zero]
    exact List.forall₂_same.2 fun d _ h _ => h
  obtain ⟨r, h1, h2, h3, h4, h5⟩ := C99_compare_tensors_partial c a a ha ha hna hna hfit hwide
  have hr : r.shape.map dimSize = a.shape.map dimSize := by
    rw [h4]
    simp only [bsizes, Nat.sub_self, List.take_zero, List.drop_zero, List.nil_append]
    generalize a.shape.map dimSize = l
    induction l with
    | nil => rfl
    | cons n l ih => simp [bsize]
  refine ⟨r, h1, hr, fun e he hn => ⟨?_, ?_⟩⟩
  · refine (h5 e (by rw [hr]; exact he)).2 fun h => hn ?_
    have := h.1
    rwa [clip_eq he.length_eq.symm, clips_inRange he] at this
  · unfold truth
    rw [if_pos]
    rcases hc with rfl | rfl | rfl
    · rfl
    · exact le_refl _
    · exact le_refl _

/-- **C99**: `a.div(b)`, with broadcasting, is the quotient at every element where that of `b` is not zero. -/
theorem C99_div_partial {K : Type} [Field K] (a b : BT G K) (ha : Conserving a.shape a.rule a.blocks)
    (hb : Conserving b.shape b.rule b.blocks) (hna : ∀ d ∈ a.shape, d ≠ []) (hnb : ∀ d ∈ b.shape, d ≠ [])
    (hf : Fits a.shape b.shape) (hw : NoWide a.shape b.shape) :
    ∃ r, divT a b = .ok r ∧ r.rule = a.rule + b.rule ∧ Conserving r.shape r.rule r.blocks ∧
      r.shape.map dimSize = bsizes (a.shape.map dimSize) (b.shape.map dimSize) ∧
      ∀ e, InRange e (r.shape.map dimSize) → entry b.shape b.blocks (clip (b.shape.map dimSize) e) ≠ 0 →
        entry r.shape r.blocks e =
          entry a.shape a.blocks (clip (a.shape.map dimSize) e) / entry b.shape b.blocks (clip (b.shape.map dimSize) e) := by
  obtain ⟨r, h1, h2, h3, h4, h5⟩ := broadcastOp_held (· / ·) a b ha hb (goodDims hna hnb hf hw) hf
  refine ⟨r, h1, h2, h3, h4, fun e he h0 => ?_⟩
  have hh : Held b.shape b.blocks (clip (b.shape.map dimSize) e) := by
    by_contra hn
    exact h0 (entry_not_held hn)
  by_cases hl : Held a.shape a.blocks (clip (a.shape.map dimSize) e)
  · exact (h5 e he).1 hl hh
  · rw [(h5 e he).2 fun h => hl h.1, entry_not_held hl, zero_div]

/-- **C99**: `a.pow(b)`, with broadcasting, is the power at every element where the exponent is positive.  The selection rules
add up.  For `pow_` see `Props/PowInPlace`. -/
theorem C99_pow_partial (a b : BT G ℝ) (ha : Conserving a.shape a.rule a.blocks)
    (hb : Conserving b.shape b.rule b.blocks) (hna : ∀ d ∈ a.shape, d ≠ []) (hnb : ∀ d ∈ b.shape, d ≠ [])
    (hf : Fits a.shape b.shape) (hw : NoWide a.shape b.shape) :
    ∃ r, powT a b = .ok r ∧ r.rule = a.rule + b.rule ∧ Conserving r.shape r.rule r.blocks ∧
      r.shape.map dimSize = bsizes (a.shape.map dimSize) (b.shape.map dimSize) ∧
      ∀ e, InRange e (r.shape.map dimSize) → 0 < entry b.shape b.blocks (clip (b.shape.map dimSize) e) →
        entry r.shape r.blocks e =
          entry a.shape a.blocks (clip (a.shape.map dimSize) e) ^ entry b.shape b.blocks (clip (b.shape.map dimSize) e) := by
  obtain ⟨r, h1, h2, h3, h4, h5⟩ := broadcastOp_held (fun x y : ℝ => x ^ y) a b ha hb (goodDims hna hnb hf hw) hf
  refine ⟨r, h1, h2, h3, h4, fun e he h0 => ?_⟩
  have hh : Held b.shape b.blocks (clip (b.shape.map dimSize) e) := by
    by_contra hn
    exact (ne_of_gt h0) (entry_not_held hn)
  by_cases hl : Held a.shape a.blocks (clip (a.shape.map dimSize) e)
  · exact (h5 e he).1 hl hh
  · rw [(h5 e he).2 fun h => hl h.1, entry_not_held hl, Real.zero_rpow (ne_of_gt h0)]

/-- **C99** fails of `pow` of two tensors: where the exponent has no block, `x^0` is given as 0. -/
theorem C99_pow_tensor_fails (a b : BT G ℝ) (ha : Conserving a.shape a.rule a.blocks)
    (hb : Conserving b.shape b.rule b.blocks) (hna : ∀ d ∈ a.shape, d ≠ []) (hnb : ∀ d ∈ b.shape, d ≠ [])
    (hf : Fits a.shape b.shape) (hw : NoWide a.shape b.shape) :
    ∃ r, powT a b = .ok r ∧ ∀ e, InRange e (r.shape.map dimSize) → ¬ Held b.shape b.blocks (clip (b.shape.map dimSize) e) →
      entry r.shape r.blocks e = 0 ∧
        entry a.shape a.blocks (clip (a.shape.map dimSize) e) ^ entry b.shape b.blocks (clip (b.shape.map dimSize) e) = 1 := by
  obtain ⟨r, h1, _, _, _, h5⟩ := broadcastOp_held (fun x y : ℝ => x ^ y) a b ha hb (goodDims hna hnb hf hw) hf
  refine ⟨r, h1, fun e he hn => ⟨(h5 e he).2 fun h => hn h.2, ?_⟩⟩
  rw [entry_not_held hn, Real.rpow_zero]

end

/-! ### A tensor that meets the hypotheses -/

/-- A diagonal two by two tensor: `[0, 1]` is forbidden. -/
def ex99 : BT ℤ ℝ := ⟨[[(1, 0), (1, 1)], [(1, 0), (1, -1)]], 0, [([0, 0], ⟨[1, 1], fun _ => 2⟩), ([1, 1], ⟨[1, 1], fun _ => -3⟩)]⟩

theorem ex99_conserving : Conserving ex99.shape ex99.rule ex99.blocks := by
  refine ⟨?_, ?_⟩
  · show Sorted [([0, 0], _), ([1, 1], _)]
    simp only [Sorted, List.pairwise_cons, List.mem_singleton, forall_eq, List.not_mem_nil, false_implies, implies_true,
      List.Pairwise.nil, and_true]
    decide
  · intro k b h
    simp only [ex99, List.mem_cons, List.not_mem_nil, or_false, Prod.mk.injEq] at h
    rcases h with ⟨rfl, rfl⟩ | ⟨rfl, rfl⟩
    · exact ⟨_, rfl, rfl, rfl⟩
    · exact ⟨_, rfl, rfl, rfl⟩

example : Held ex99.shape ex99.blocks [1, 1] ∧ ¬ Held ex99.shape ex99.blocks [0, 1] ∧ InRange [0, 1] (ex99.shape.map dimSize) ∧
    (∀ d ∈ ex99.shape, d ≠ []) ∧ Fits ex99.shape ex99.shape ∧ NoWide ex99.shape ex99.shape := by
  refine ⟨⟨[1, 1], [0, 0], _, rfl, by simp only [ex99]; exact List.mem_cons_of_mem _ (List.mem_singleton.2 rfl)⟩, ?_, ?_, ?_, ?_, ?_⟩
  · rintro ⟨k, o, b, h1, h2⟩
    cases h1
    simp [ex99] at h2
  · unfold InRange; decide
  · simp [ex99]
  · exact .cons (Or.inl rfl) (.cons (Or.inl rfl) .nil)
  · exact .cons (fun h _ => h) (.cons (fun h _ => h) .nil)

end BT
end QuantiT
