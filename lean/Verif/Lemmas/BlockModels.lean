import Verif.Spec.BlockModels
import Verif.Model.BlockModels
import Verif.Props.View
import Verif.Lemmas.Rep
import Verif.Lemmas.BlockDmrg
/-
Lemmas for C83, C84.
-/
set_option linter.unusedSectionVars false
namespace QuantiT
namespace BN
open Spec BT MP Finset
variable {G K : Type}

theorem entryCharge_eq [AddCommMonoid G] : ∀ {sh : Shape G} {e b o : List Nat} {secs}, locateAll sh e = some (b, o) →
    sections sh b = some secs → entryCharge sh e = charge secs
  | [], [], b, o, secs, h, hs => by
    simp only [locateAll, Option.some.injEq, Prod.mk.injEq] at h
    obtain ⟨rfl, rfl⟩ := h
    simp only [sections, Option.some.injEq] at hs
    subst hs
    rfl
  | [], _ :: _, _, _, _, h, _ => by simp [locateAll] at h
  | _ :: _, [], _, _, _, h, _ => by simp [locateAll] at h
  | d :: ds, x :: xs, b, o, secs, h, hs => by
    obtain ⟨b0, o0, bs, os, h1, h2, h3⟩ := locateAll_cons.1 h
    cases h3
    simp only [sections] at hs
    cases hd : d[b0]? with
    | none => rw [hd] at hs; simp at hs
    | some s =>
      cases hr : sections ds bs with
      | none => rw [hd, hr] at hs; simp at hs
      | some ss =>
        rw [hd, hr] at hs
        simp only [Option.some.injEq] at hs
        subst hs
        have := entryCharge_eq h2 hr
        simp only [entryCharge, this, chargeAt, h1, hd, charge, List.map_cons, List.sum_cons]

theorem allowed_iff_charge [AddCommMonoid G] {sh : Shape G} {rule : G} {e b o : List Nat} (h : locateAll sh e = some (b, o)) :
    Allowed sh rule b ↔ entryCharge sh e = rule := by
  obtain ⟨secs, hs, _⟩ := locateAll_sections h
  rw [entryCharge_eq h hs]
  constructor
  · rintro ⟨s, h1, h2⟩
    rw [hs] at h1
    cases h1
    exact h2
  · intro hc
    exact ⟨secs, hs, hc⟩

theorem allIdx_eq : ∀ ds : List Nat, allIdx ds = indices ds
  | [] => rfl
  | n :: ns => by simp only [allIdx, indices, allIdx_eq ns]

/-- The sum over the entries of a block is the sum over the entries of the tensor that lie in it. -/
theorem blockWeight_eq [AddCommMonoid G] [DecidableEq G] [Semiring K] {sh : Shape G} {W cut : Blk K} {e b o : List Nat} {secs} (h : locateAll sh e = some (b, o))
    (hs : sections sh b = some secs) (hd : cut.dims = secs.map Prod.fst)
    (hf : ∀ e o, locateAll sh e = some (b, o) → cut.f o = W.f e) :
    ((allIdx cut.dims).map fun o => cut.f o ^ 2).sum = blockWeight sh W e := by
  rw [allIdx_eq, ← List.sum_toFinset _ (indices_nodup _), blockWeight]
  symm
  have key : ∀ e' ∈ (configs (sh.map dimSize)).filter (SameBlock sh e), ∃ o', locateAll sh e' = some (b, o') := by
    intro e' he'
    rw [mem_filter, mem_configs] at he'
    obtain ⟨⟨b', o'⟩, hl⟩ := locateAll_isSome.2 he'.1
    have := he'.2
    simp only [SameBlock, h, hl, Option.map_some, Option.some.injEq] at this
    exact ⟨o', by rw [hl, this]⟩
  refine Finset.sum_bij (fun e' he' => (key e' he').choose) ?_ ?_ ?_ ?_
  · intro e' he'
    rw [List.mem_toFinset, mem_indices, hd]
    exact locateAll_offset (key e' he').choose_spec hs
  · intro e1 h1 e2 h2 h12
    have q1 := (key e1 h1).choose_spec
    have q2 := (key e2 h2).choose_spec
    rw [← h12] at q2
    exact locateAll_inj q1 q2
  · intro o' ho'
    rw [List.mem_toFinset, mem_indices, hd] at ho'
    obtain ⟨e', he'⟩ := locateAll_surj hs ho'
    have hm : e' ∈ (configs (sh.map dimSize)).filter (SameBlock sh e) := by
      rw [mem_filter, mem_configs]
      refine ⟨locateAll_isSome.1 ⟨_, he'⟩, ?_⟩
      simp [SameBlock, h, he']
    refine ⟨e', hm, ?_⟩
    have q := he'.symm.trans (key e' hm).choose_spec
    simp only [Option.some.injEq, Prod.mk.injEq, true_and] at q
    exact q.symm
  · intro e' he'
    rw [hf _ _ (key e' he').choose_spec]

theorem bcDims_self (x : List Nat) : bcDims x x = some x := by
  have h : List.Forall₂ (fun x y => x = y ∨ x = 1 ∨ y = 1) x x := List.forall₂_same.2 fun _ _ => .inl rfl
  have := bcDims_eq (a := []) h
  rw [List.nil_append] at this
  rw [this, List.nil_append]
  congr 1
  clear this h
  induction x with
  | nil => rfl
  | cons n ns ih => simp [bsize]

theorem torchAllclose_same [Field K] [LinearOrder K] {a b : Blk K} (h : a.dims = b.dims) :
    torchAllclose a b = .ok (decide (∀ o ∈ indices b.dims, |a.f o - b.f o| ≤ 1 / 10 ^ 8 + 1 / 10 ^ 5 * |b.f o|)) := by
  unfold torchAllclose
  rw [h, bcDims_self]
  simp only
  congr 1
  rw [Bool.eq_iff_iff, List.all_eq_true, decide_eq_true_iff, allIdx_eq]
  refine forall_congr' fun o => forall_congr' fun ho => ?_
  rw [decide_eq_true_iff, clip_inRange (mem_indices.1 ho)]

open Classical in
/-- Conversion and check of one tensor of the right sizes. -/
theorem siteFromDense_eq [AddCommMonoid G] [DecidableEq G] [Field K] [LinearOrder K] [IsStrictOrderedRing K] (shape : BT G K)
    (hp : ∀ d ∈ shape.shape, d ≠ []) (W : Blk K) (hd : W.dims = shape.shape.map dimSize) :
    ∃ T : BT G K, T.shape = shape.shape ∧ T.rule = shape.rule ∧ Conserving T.shape T.rule T.blocks ∧
      (∀ e, InRange e W.dims → entry T.shape T.blocks e = if Survives shape.shape shape.rule W e then W.f e else 0) ∧
      siteFromDense shape W = if ∀ e, InRange e W.dims → Survives shape.shape shape.rule W e ∨ Negligible (W.f e) then .ok T
        else Res.throw .invalidArgument := by
  obtain ⟨T, h1, h2, h3, hc, cut, hcut, hlook⟩ := fromBasic_eq shape.shape shape.rule hp (normAbove (1 / 10 ^ 4 : K)) W hd
  have hent : ∀ e, InRange e W.dims → entry T.shape T.blocks e = if Survives shape.shape shape.rule W e then W.f e else 0 := by
    intro e he
    rw [hd] at he
    obtain ⟨⟨b, o⟩, hl⟩ := locateAll_isSome.mpr he
    obtain ⟨secs, hs, ho⟩ := locateAll_sections hl
    obtain ⟨hdims, hf⟩ := hcut b secs hs
    have hw := blockWeight_eq hl hs hdims hf
    have hsg : normAbove (1 / 10 ^ 4 : K) (cut b) = true ↔ (1 / 10 ^ 4 : K) ^ 2 < blockWeight shape.shape W e := by
      rw [normAbove, decide_eq_true_iff, hw]
    have : (Allowed shape.shape shape.rule b ∧ normAbove (1 / 10 ^ 4 : K) (cut b) = true) ↔
        Survives shape.shape shape.rule W e := by
      rw [hsg, allowed_iff_charge hl]; rfl
    simp only [entry, h2, hl, hlook, this]
    by_cases hS : Survives shape.shape shape.rule W e
    · simp only [if_pos hS, hf e o hl]
    · simp only [if_neg hS]
  have hc' : Conserving T.shape T.rule T.blocks := by rw [h2, h3]; exact hc
  refine ⟨T, h2, h3, hc', hent, ?_⟩
  obtain ⟨D, d1, d2, d3⟩ := C18_to_dense T hc'
  have hDd : D.dims = W.dims := by rw [d2, h2, hd]
  simp only [siteFromDense, fromBasicLike, h1, bind, Except.bind, d1, torchAllclose_same hDd, decide_eq_true_eq]
  refine if_congr ?_ rfl rfl
  refine forall_congr' fun e => ?_
  rw [mem_indices]
  refine forall_congr' fun he => ?_
  rw [d3, hent e he]
  by_cases hS : Survives shape.shape shape.rule W e
  · rw [if_pos hS, sub_self, abs_zero]
    exact ⟨fun _ => .inl hS, fun _ => by positivity⟩
  · rw [if_neg hS, zero_sub, abs_neg]
    exact ⟨fun h => .inr h, fun h => h.resolve_left hS⟩

end BN
end QuantiT
