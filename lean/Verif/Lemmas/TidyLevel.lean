import Verif.Lemmas.BlockCut
/-
A case in which the truncation of a block SVD empties no section: all singular values are equal.
-/
namespace QuantiT.BN
open Spec BT MP Finset
variable {G 𝕜 : Type} [RCLike 𝕜]

/-- When the rows of the matrix are orthogonal and of the same norm, all singular values are equal and the truncation keeps every section. -/
theorem tidy_level [AddCommGroup G] [LinearOrder G] {fac : Blk 𝕜 → Blk 𝕜 × Blk 𝕜 × Blk 𝕜} (hfac : DenseSvd fac) (t : BT G 𝕜) (ds1 ds2 : Shape G)
    (hs : t.shape = ds1 ++ ds2) (h1 : ds1 ≠ []) (h2 : ds2 ≠ []) (hc : Conserving t.shape t.rule t.blocks) (hz : ∀ d ∈ t.shape, 0 < dimSize d)
    (hne : NoEmpty t.shape) (hsm : (ds1.map dimSize).prod < 2 ^ 63) (eps cutoff : ℝ) (he0 : 0 < eps) (hcut : 0 ≤ cutoff) (minB maxB : Nat) (hmin : 1 ≤ minB)
    (lam : ℝ) (hlam : 0 < lam)
    (hrow : ∀ e ∈ configs (ds1.map dimSize), ∀ e' ∈ configs (ds1.map dimSize),
      ∑ f ∈ configs (ds2.map dimSize), star (entry t.shape t.blocks (e ++ f)) * entry t.shape t.blocks (e' ++ f) = if e = e' then (lam : 𝕜) else 0) :
    Tidy fac eps cutoff minB maxB t ds1.length := by
  intro u0 d0 v0 thr0 q1 q2
  have hb : t.blocks ≠ [] := by
    intro h
    have he : (List.replicate ds1.length 0) ∈ configs (ds1.map dimSize) := by
      rw [mem_configs]
      have : ∀ d ∈ ds1, 0 < dimSize d := fun d hd => hz d (by rw [hs]; simp [hd])
      clear * - this
      induction ds1 with
      | nil => exact .nil
      | cons d ds ih => exact .cons (this d (by simp)) (ih fun d hd => this d (by simp [hd]))
    have := hrow _ he _ he
    rw [if_pos rfl, h] at this
    have h0 : ∀ e, entry t.shape ([] : List (List Nat × Blk 𝕜)) e = 0 := by
      intro e
      unfold entry
      cases locateAll t.shape e <;> rfl
    simp only [h0] at this
    simp at this
    exact absurd this.symm (by exact_mod_cast hlam.ne')
  obtain ⟨u, d, v, b, e1, ⟨u1, u2, u3⟩, ⟨d1, d2, d3⟩, ⟨v1, v2, v3⟩, ⟨b1, b2, b3⟩, hp, ho, -⟩ :=
    C79_split_partial fac hfac.sizes hfac.product hfac.ortho t ds1 ds2 hs h1 h2 hc hz hb
  rw [e1] at q1
  obtain ⟨rfl, rfl, rfl⟩ : u = u0 ∧ d = d0 ∧ v = v0 := by
    have := Except.ok.inj q1
    simpa [Prod.mk.injEq] using this
  obtain ⟨hfull, hval⟩ := svdSplit_values hfac t ds1 ds2 hs h1 h2 hc hz e1 d1
  have hpos := svdSplit_noEmpty t ds1 ds2 hs h1 h2 hc hz hne e1 d1
  -- every value is the square root of `lam`
  have hsq : ∀ k, k < dimSize b → star (entry d.shape d.blocks [k]) * entry d.shape d.blocks [k] = (lam : 𝕜) := by
    intro k hk
    have hcol : ∀ f ∈ configs (ds2.map dimSize), ∑ e ∈ configs (ds1.map dimSize), star (entry u.shape u.blocks (e ++ [k])) * entry t.shape t.blocks (e ++ f)
        = entry d.shape d.blocks [k] * star (entry v.shape v.blocks (f ++ [k])) := by
      intro f hf
      calc ∑ e ∈ configs (ds1.map dimSize), star (entry u.shape u.blocks (e ++ [k])) * entry t.shape t.blocks (e ++ f)
          = ∑ e ∈ configs (ds1.map dimSize), ∑ k' ∈ range (dimSize b), (star (entry u.shape u.blocks (e ++ [k])) * entry u.shape u.blocks (e ++ [k'])) *
              (entry d.shape d.blocks [k'] * star (entry v.shape v.blocks (f ++ [k']))) := by
            refine sum_congr rfl fun e he => ?_
            rw [hp e f (mem_configs.1 he) (mem_configs.1 hf), mul_sum]
            exact sum_congr rfl fun k' _ => by ring
        _ = ∑ k' ∈ range (dimSize b), (if k = k' then 1 else 0) * (entry d.shape d.blocks [k'] * star (entry v.shape v.blocks (f ++ [k']))) := by
            rw [sum_comm]
            refine sum_congr rfl fun k' hk' => ?_
            rw [← sum_mul, (ho k k' hk (mem_range.1 hk')).1]
        _ = _ := by simp [hk]
    have e1 : ∑ f ∈ configs (ds2.map dimSize), star (entry d.shape d.blocks [k] * star (entry v.shape v.blocks (f ++ [k]))) *
        (entry d.shape d.blocks [k] * star (entry v.shape v.blocks (f ++ [k]))) = star (entry d.shape d.blocks [k]) * entry d.shape d.blocks [k] := by
      have := (ho k k hk hk).2
      rw [if_pos rfl] at this
      calc _ = ∑ f ∈ configs (ds2.map dimSize), star (entry d.shape d.blocks [k]) * entry d.shape d.blocks [k] *
              (star (entry v.shape v.blocks (f ++ [k])) * entry v.shape v.blocks (f ++ [k])) := by
            refine sum_congr rfl fun f _ => ?_
            rw [star_mul, star_star]
            ring
        _ = _ := by rw [← mul_sum, this, mul_one]
    rw [← e1]
    calc _ = ∑ f ∈ configs (ds2.map dimSize), star (∑ e ∈ configs (ds1.map dimSize), star (entry u.shape u.blocks (e ++ [k])) * entry t.shape t.blocks (e ++ f)) *
            ∑ e ∈ configs (ds1.map dimSize), star (entry u.shape u.blocks (e ++ [k])) * entry t.shape t.blocks (e ++ f) := by
          refine sum_congr rfl fun f hf => ?_
          rw [hcol f hf]
      _ = ∑ f ∈ configs (ds2.map dimSize), ∑ e ∈ configs (ds1.map dimSize), ∑ e' ∈ configs (ds1.map dimSize),
            (entry u.shape u.blocks (e ++ [k]) * star (entry u.shape u.blocks (e' ++ [k]))) *
              (star (entry t.shape t.blocks (e ++ f)) * entry t.shape t.blocks (e' ++ f)) := by
          refine sum_congr rfl fun f hf => ?_
          rw [star_sum, sum_mul_sum]
          refine sum_congr rfl fun e _ => sum_congr rfl fun e' _ => ?_
          rw [star_mul, star_star]
          ring
      _ = ∑ e ∈ configs (ds1.map dimSize), ∑ e' ∈ configs (ds1.map dimSize),
            (entry u.shape u.blocks (e ++ [k]) * star (entry u.shape u.blocks (e' ++ [k]))) * (if e = e' then (lam : 𝕜) else 0) := by
          rw [sum_comm]
          refine sum_congr rfl fun e he => ?_
          rw [sum_comm]
          refine sum_congr rfl fun e' he' => ?_
          rw [← mul_sum, hrow e he e' he']
      _ = ∑ e ∈ configs (ds1.map dimSize), star (entry u.shape u.blocks (e ++ [k])) * entry u.shape u.blocks (e ++ [k]) * (lam : 𝕜) := by
          refine sum_congr rfl fun e he => ?_
          simp only [mul_ite, mul_zero, sum_ite_eq, he, if_true]
          ring
      _ = (lam : 𝕜) := by
          rw [← sum_mul, (ho k k hk hk).1, if_pos rfl, one_mul]
  set D : BT G ℝ := mapBlocks RCLike.re d with hD
  let b0 : Dim G := b.map fun s => (s.1, 0)
  have hDs : D.shape = [b0] := d1
  have hDc : Conserving D.shape D.rule D.blocks := conserving_mapBlocks _ d3
  -- the values in the blocks
  have hall : ∀ j blk, lookup D.blocks [j] = some blk → 0 < blk.dims.getD 0 0 ∧ ∀ i, i < blk.dims.getD 0 0 → blk.f [i] = √lam := by
    intro j blk hl
    have hm : lookup D.blocks [j] = (lookup d.blocks [j]).map fun b => ⟨b.dims, fun o => RCLike.re (b.f o)⟩ :=
      FM.lookup_map_snd (fun b : Blk 𝕜 => (⟨b.dims, fun o => RCLike.re (b.f o)⟩ : Blk ℝ)) d.blocks [j]
    rw [hm] at hl
    obtain ⟨blk', hl', rfl⟩ := Option.map_eq_some_iff.1 hl
    obtain ⟨secs, w1, _, w3⟩ := d3.block _ _ (mem_of_lookup hl')
    rw [show d.shape = [b0] from d1] at w1
    obtain ⟨s', r, w4, w5, rfl⟩ := sections_cons.1 w1
    cases w5
    simp only [b0, List.getElem?_map, Option.map_eq_some_iff] at w4
    obtain ⟨s, w6, rfl⟩ := w4
    have hdim : blk'.dims.getD 0 0 = s.1 := by rw [w3]; rfl
    refine ⟨by simp only [hdim]; exact hpos s (List.mem_of_getElem? w6), fun i hi => ?_⟩
    simp only [hdim] at hi
    obtain ⟨σ, s1, s2, s3⟩ := hval _ _ (mem_of_lookup hl')
    show RCLike.re (blk'.f [i]) = _
    rw [s3 i (by rw [hdim]; exact hi), RCLike.ofReal_re]
    -- the element it is
    have hlb : ∃ k, k < dimSize b ∧ locate b0 k = some (j, i) := by
      obtain ⟨k, hk⟩ : ∃ k, locate b0 k = some (j, i) := by
        refine ⟨_, locate_iff.2 ⟨(s.1, 0), by simp [b0, w6], hi, rfl⟩⟩
      refine ⟨k, ?_, hk⟩
      have := locate_isSome.1 ⟨_, hk⟩
      have hsize : dimSize b0 = dimSize b := by simp [b0, dimSize, Function.comp_def]
      omega
    obtain ⟨k, hk, hlk⟩ := hlb
    have he := entry_single (lead := []) (e := []) d.blocks rfl hlk
    simp only [List.nil_append] at he
    have h3 := hsq k hk
    rw [show d.shape = [b0] from d1, he] at h3
    unfold blkAt at h3
    rw [hl'] at h3
    simp only at h3
    have h4 : blk'.f [i] = (σ i : 𝕜) := s3 i (by rw [hdim]; exact hi)
    have h5 : star (blk'.f ([] ++ [i])) * blk'.f ([] ++ [i]) = (lam : 𝕜) := h3
    rw [List.nil_append, h4] at h5
    have h6 : σ i * σ i = lam := by
      have : ((σ i * σ i : ℝ) : 𝕜) = (lam : 𝕜) := by
        rw [← h5]
        simp
      exact_mod_cast this
    rw [← h6, Real.sqrt_mul_self (s2 i)]
  have hvals : ∀ x ∈ vectorValues D.blocks, x = √lam := by
    intro x hx
    unfold vectorValues at hx
    obtain ⟨⟨k, blk⟩, hm, hx⟩ := List.mem_flatMap.1 hx
    obtain ⟨i, hi, rfl⟩ := List.mem_map.1 hx
    obtain ⟨secs, w1, _, w3⟩ := hDc.block _ _ hm
    rw [hDs] at w1
    have hk : k.length = 1 := by
      have := (sections_length w1).1
      simpa using this
    obtain ⟨j, rfl⟩ := List.length_eq_one_iff.1 hk
    exact (hall j blk (lookup_of_mem (e := ([j], blk)) hDc.sorted hm)).2 i (List.mem_range.1 hi)
  have hDfull : ∀ j, j < b0.length → lookup D.blocks [j] ≠ none := by
    intro j hj
    have : lookup D.blocks [j] = (lookup d.blocks [j]).map fun b => ⟨b.dims, fun o => RCLike.re (b.f o)⟩ :=
      FM.lookup_map_snd (fun b : Blk 𝕜 => (⟨b.dims, fun o => RCLike.re (b.f o)⟩ : Blk ℝ)) d.blocks [j]
    rw [this]
    simpa using hfull j (by simpa [b0] using hj)
  have hsize : dimSize b0 = dimSize b := by simp [b0, dimSize, Function.comp_def]
  have hvp := vectorValues_perm hDs hDc hDfull
  rw [hsize] at hvp
  have hvl : (vectorValues D.blocks).length = dimSize b := by rw [hvp.length_eq]; simp
  have hle : dimSize b ≤ (ds1.map dimSize).prod := by
    rw [← card_configs]
    exact columns_le (U := fun e k => entry u.shape u.blocks (e ++ [k])) fun a b ha hb => (ho a b ha hb).1
  have hbpos : 0 < dimSize b := by
    obtain ⟨s, b', rfl⟩ := List.exists_cons_of_ne_nil b1
    have := hpos s (by simp)
    simp [dimSize]
    omega
  obtain ⟨lst, K0, l1, l2, l3, l4, l5, l6, l7, l8, l9⟩ := keepAbove_eq D (by
      rw [← List.length_pos_iff, hvl]; exact hbpos) (by rw [hvl]; omega) cutoff hcut (fun x => x ^ 2) (fun x _ => sq_nonneg x) eps maxB minB hmin
  rw [l5] at q2
  have hthr : thr0 < √lam := by
    have : lst.getD (K0 - 1) 0 = √lam := by
      rw [List.getD_eq_getElem _ _ (by omega)]
      exact hvals _ (l1.mem_iff.1 (List.getElem_mem _))
    rw [this] at q2
    have h0 := Except.ok.inj q2
    have := Real.sqrt_pos.2 hlam
    nlinarith
  have hkeep : ∀ k, emptiedIn D.blocks thr0 k = false := by
    intro k
    unfold emptiedIn
    rw [decide_eq_false_iff_not]
    intro h
    obtain ⟨j, _, hj⟩ := Option.bind_eq_some_iff.1 h
    unfold above at hj
    obtain ⟨blk, hl, hj⟩ := Option.map_eq_some_iff.1 hj
    obtain ⟨h0, hv⟩ := hall j blk hl
    rw [List.length_eq_zero_iff, List.filter_eq_nil_iff] at hj
    refine hj 0 (List.mem_range.2 h0) ?_
    rw [hv 0 h0]
    simpa using hthr
  exact ⟨isolated_of_none fun x _ => hkeep _, isolated_of_none fun x _ => hkeep _⟩

end QuantiT.BN
