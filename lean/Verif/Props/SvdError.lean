import Verif.Lemmas.SvdError
import Verif.Lemmas.BlockCut
import Verif.Props.SvdDense
import Verif.Props.SvdBatch
/-
C68 for tensors of any number of dimensions with real or complex entries: the error of a truncated SVD, and that it is the smallest possible.
-/
namespace QuantiT
namespace BN
open Spec BT Finset
variable {G 𝕜 : Type} [RCLike 𝕜]

/-- **C68.**  `svd(t, split, tol, min, max, pow)` of a real or complex tensor of any number of dimensions.  `(u, d, v)` is the decomposition
that is not truncated.  The values `d` are real and not negative; those above some threshold are kept.  The square of the
distance between `t` and the product of the truncated factors is the sum of the squares of the values that are discarded, and
no sum of as many products of a tensor of the first dimensions and one of the others is nearer to `t`. -/
theorem C68_error_split [AddCommGroup G] [LinearOrder G] (fac : Blk 𝕜 → Blk 𝕜 × Blk 𝕜 × Blk 𝕜) (hfac : DenseSvd fac) (t : BT G 𝕜) (ds1 ds2 : Shape G)
    (hs : t.shape = ds1 ++ ds2) (h1 : ds1 ≠ []) (h2 : ds2 ≠ []) (hc : Conserving t.shape t.rule t.blocks)
    (hz : ∀ d ∈ t.shape, 0 < dimSize d) (hb : t.blocks ≠ []) (hsm : (ds1.map dimSize).prod < 2 ^ 63) (eps tol : ℝ) (htol : 0 ≤ tol)
    (minS maxS : Nat) (hmin : 1 ≤ minS) (pw : ℝ → ℝ) (hpw : ∀ x, 0 ≤ x → 0 ≤ pw x) :
    ∃ (u d v : BT G 𝕜) (b : Dim G) (σ : Nat → ℝ), svdSplit fac t ds1.length = .ok (u, d, v) ∧
      d.shape = neutralised [b] ∧ (∀ k, k < dimSize b → 0 ≤ σ k ∧ entry d.shape d.blocks [k] = (σ k : 𝕜)) ∧
      ((∃ e, InRange e (t.shape.map dimSize) ∧ entry t.shape t.blocks e ≠ 0) → 0 < dimSize b) ∧
      (0 < dimSize b → ∃ (u' d' v' : BT G 𝕜) (b' : Dim G) (thr : ℝ), svdCutB fac eps t ds1.length tol minS maxS pw = .ok (u', d', v') ∧ d'.shape = [b'] ∧
      ∑ e ∈ configs (ds1.map dimSize), ∑ f ∈ configs (ds2.map dimSize), ‖entry t.shape t.blocks (e ++ f) - ∑ k ∈ range (dimSize b'),
          entry u'.shape u'.blocks (e ++ [k]) * entry d'.shape d'.blocks [k] * star (entry v'.shape v'.blocks (f ++ [k]))‖ ^ 2 =
        ∑ k ∈ range (dimSize b), (if thr < σ k then 0 else σ k ^ 2) ∧
      ∀ (p : Nat) (x y : List Nat → Nat → 𝕜), p ≤ (((List.range (dimSize b)).map σ).filter fun s => decide (thr < s)).length →
        ∑ k ∈ range (dimSize b), (if thr < σ k then 0 else σ k ^ 2) ≤
          ∑ e ∈ configs (ds1.map dimSize), ∑ f ∈ configs (ds2.map dimSize), ‖entry t.shape t.blocks (e ++ f) - terms x y p e f‖ ^ 2) := by
  obtain ⟨u, d, v, b, e1, ⟨u1, u2, u3⟩, ⟨d1, d2, d3⟩, ⟨v1, v2, v3⟩, ⟨b1, b2, b3⟩, hp, ho, -⟩ :=
    C79_split_partial fac hfac.sizes hfac.product hfac.ortho t ds1 ds2 hs h1 h2 hc hz hb
  obtain ⟨hfull, hval⟩ := svdSplit_values hfac t ds1 ds2 hs h1 h2 hc hz e1 d1
  set D : BT G ℝ := mapBlocks RCLike.re d with hD
  let b0 : Dim G := b.map fun s => (s.1, 0)
  have hDs : D.shape = [b0] := d1
  have hDc : Conserving D.shape D.rule D.blocks := conserving_mapBlocks _ d3
  have hdesc : Descending D.blocks := by
    intro kb hkb i j hij hj
    obtain ⟨⟨k, blk⟩, hm, rfl⟩ := List.mem_map.1 hkb
    obtain ⟨σ, s1, s2, s3⟩ := hval k blk hm
    show RCLike.re (blk.f [j]) ≤ RCLike.re (blk.f [i])
    have hj : j < blk.dims.getD 0 0 := hj
    rw [s3 i (by omega), s3 j hj, RCLike.ofReal_re, RCLike.ofReal_re]
    exact s1 hij
  have hsize : dimSize b0 = dimSize b := by simp [b0, dimSize, Function.comp_def]
  have hDfull : ∀ j, j < b0.length → lookup D.blocks [j] ≠ none := by
    intro j hj
    have : lookup D.blocks [j] = (lookup d.blocks [j]).map fun b => ⟨b.dims, fun o => RCLike.re (b.f o)⟩ :=
      FM.lookup_map_snd (fun b : Blk 𝕜 => (⟨b.dims, fun o => RCLike.re (b.f o)⟩ : Blk ℝ)) d.blocks [j]
    rw [this]
    simpa using hfull j (by simpa [b0] using hj)
  have hloc : ∀ k, k < dimSize b → ∃ x : ℝ, 0 ≤ x ∧ entry d.shape d.blocks [k] = (x : 𝕜) := by
    intro k hk
    obtain ⟨⟨n, ko⟩, hl⟩ := locate_isSome.2 (show k < dimSize b0 by omega)
    have he := entry_single (lead := []) (e := []) d.blocks rfl hl
    simp only [List.nil_append] at he
    rw [show d.shape = [b0] from d1, he]
    unfold blkAt
    cases hlk : lookup d.blocks [n] with
    | none => exact ⟨0, le_rfl, by simp⟩
    | some blk =>
      obtain ⟨σ, s1, s2, s3⟩ := hval _ _ (mem_of_lookup hlk)
      refine ⟨σ ko, s2 _, s3 ko ?_⟩
      obtain ⟨secs, q1, _, q3⟩ := d3.block _ _ (mem_of_lookup hlk)
      rw [show d.shape = [b0] from d1] at q1
      obtain ⟨s', r, q4, q5, rfl⟩ := sections_cons.1 q1
      cases q5
      obtain ⟨s, w1, w2, _⟩ := locate_iff.1 hl
      rw [w1] at q4
      cases q4
      rw [q3]
      exact w2
  have hre : ∀ k, entry D.shape D.blocks [k] = RCLike.re (entry d.shape d.blocks [k]) := fun k => entry_mapBlocks _ (by simp) d [k]
  have hσ : ∀ k, k < dimSize b → 0 ≤ entry D.shape D.blocks [k] ∧ entry d.shape d.blocks [k] = ((entry D.shape D.blocks [k] : ℝ) : 𝕜) := by
    intro k hk
    obtain ⟨x, p1, p2⟩ := hloc k hk
    rw [hre, p2, RCLike.ofReal_re]
    exact ⟨p1, rfl⟩
  have hle : dimSize b ≤ (ds1.map dimSize).prod := by
    rw [← card_configs]
    exact columns_le (U := fun e k => entry u.shape u.blocks (e ++ [k])) fun a b ha hb => (ho a b ha hb).1
  have hvp := vectorValues_perm hDs hDc hDfull
  rw [hsize] at hvp
  have hvl : (vectorValues D.blocks).length = dimSize b := by rw [hvp.length_eq]; simp
  refine ⟨u, d, v, b, fun k => entry D.shape D.blocks [k], e1, d1, hσ, ?_, fun hpos => ?_⟩
  · rintro ⟨e, he, hne⟩
    rw [hs, List.map_append] at he
    have hsplit := List.take_append_drop (ds1.map dimSize).length e
    obtain ⟨he1, he2⟩ : InRange (e.take (ds1.map dimSize).length) (ds1.map dimSize) ∧ InRange (e.drop (ds1.map dimSize).length) (ds2.map dimSize) := by
      have := List.forall₂_take_append e _ _ he
      exact ⟨this, List.forall₂_drop_append e _ _ he⟩
    rw [← hsplit, hp _ _ he1 he2] at hne
    rcases Nat.eq_zero_or_pos (dimSize b) with h | h
    · rw [h] at hne
      simp at hne
    · exact h
  have hfst : b.map Prod.fst = b0.map Prod.fst := by simp [b0, Function.comp_def]
  obtain ⟨thr, u', d', v', b', k1, k0, k2, k3⟩ := C68_product (R := 𝕜) (fun x : ℝ => (x : 𝕜)) star (by simp) u v D ds1 (ds2.map flipped) b b b0
    u1 v1 hDs hfst hfst u3 v3 hDc hdesc (by rw [← List.length_pos_iff, hvl]; exact hpos) (by rw [hvl]; omega) maxS minS hmin tol htol pw hpw eps
  have hfl : (ds2.map flipped).map dimSize = ds2.map dimSize := by simp [Function.comp_def, dimSize_flipped]
  rw [hsize, hfl] at k3
  have ho1 := fun a b ha hb => (ho a b ha hb).1
  have ho2 := fun a b ha hb => (ho a b ha hb).2
  have hd' : ∀ k, entry (ofRealB d' : BT G 𝕜).shape (ofRealB d' : BT G 𝕜).blocks [k] = ((entry d'.shape d'.blocks [k] : ℝ) : 𝕜) :=
    fun k => entry_mapBlocks _ (by simp) d' [k]
  refine ⟨u', ofRealB d', v', b', thr, ?_, k0, ?_, ?_⟩
  · unfold svdCutB
    simp only [e1, bind, Except.bind]
    rw [← hD, k1]
  · have hf := LA.frob_terms (configs (ds1.map dimSize)) (configs (ds2.map dimSize)) (dimSize b) (fun e k => entry u.shape u.blocks (e ++ [k]))
      (fun k => if thr < entry D.shape D.blocks [k] then 0 else entry D.shape D.blocks [k]) (fun e k => entry v.shape v.blocks (e ++ [k])) ho1 ho2
    refine Eq.trans ?_ (hf.trans (sum_congr rfl fun k _ => ?_))
    · refine sum_congr rfl fun e he => sum_congr rfl fun f hf => ?_
      congr 2
      rw [hp e f (MP.mem_configs.1 he) (MP.mem_configs.1 hf)]
      refine Eq.trans (congrArg _ (Eq.trans (sum_congr rfl fun k _ => by rw [hd' k]) (k3 e f (MP.mem_configs.1 he) (MP.mem_configs.1 hf)))) ?_
      rw [← sum_sub_distrib]
      refine sum_congr rfl fun k hk => ?_
      rw [(hσ k (mem_range.1 hk)).2]
      split <;> simp
    · simp only
      split <;> simp
  · intro p x y hpp
    exact LA.eckart_young_above _ _ (dimSize b) (fun e f => entry t.shape t.blocks (e ++ f)) (fun e k => entry u.shape u.blocks (e ++ [k])) _
      (fun e k => entry v.shape v.blocks (e ++ [k])) (fun k hk => (hσ k hk).1) ho1 ho2 (fun e he f hf => by
        rw [hp e f (MP.mem_configs.1 he) (MP.mem_configs.1 hf)]
        exact sum_congr rfl fun k hk => by rw [← (hσ k (mem_range.1 hk)).2]) thr p hpp x y

/-- The hypotheses are met, over the real and over the complex numbers: a tensor of three dimensions that is not zero, cut to one value. -/
example : ∃ fac : Blk 𝕜 → Blk 𝕜 × Blk 𝕜 × Blk 𝕜, DenseSvd fac ∧ ∃ u' d' v', svdCutB fac 0 (exBatch 𝕜) 2 0 1 1 (fun x => x ^ 2) = .ok (u', d', v') := by
  obtain ⟨fac, hfac⟩ := LA.denseSvd_exists 𝕜
  refine ⟨fac, hfac, ?_⟩
  obtain ⟨u, d, v, b, σ, _, _, _, h4, h5⟩ := C68_error_split fac hfac (exBatch 𝕜) [[(1, 0), (2, 0)], [(2, 0)]] [[(2, 0)]] rfl (by simp) (by simp)
    (exBatch_conserving 𝕜) (by unfold exBatch; simp [dimSize]) (by simp [exBatch]) (by norm_num [dimSize]) 0 0 le_rfl 1 1 le_rfl (fun x => x ^ 2)
    (fun x _ => sq_nonneg x)
  obtain ⟨u', d', v', b', thr, h6, _⟩ := h5 (h4 ⟨[2, 1, 1], by unfold InRange; exact .cons (by decide) (.cons (by decide) (.cons (by decide) .nil)),
    by simp [entry, locateAll, locate, exBatch, lookup]⟩)
  exact ⟨u', d', v', h6⟩

end BN
end QuantiT
