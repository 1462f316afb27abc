import Verif.Lemmas.CutExact
/-
A case in which the truncation of a block SVD empties no section: the bond has only one.
-/
namespace QuantiT.BN
open Spec BT MP Finset
variable {G 𝕜 : Type} [RCLike 𝕜]

/-- When the rows have one section only and the tensor is not zero, the truncation keeps a value of that section. -/
theorem kept_one [AddCommGroup G] [LinearOrder G] {fac : Blk 𝕜 → Blk 𝕜 × Blk 𝕜 × Blk 𝕜} (hfac : DenseSvd fac) (t : BT G 𝕜) (ds1 ds2 : Shape G)
    (hs : t.shape = ds1 ++ ds2) (h1 : ds1 ≠ []) (h2 : ds2 ≠ []) (hc : Conserving t.shape t.rule t.blocks) (hz : ∀ d ∈ t.shape, 0 < dimSize d)
    (hsm : (ds1.map dimSize).prod < 2 ^ 63) (eps cutoff : ℝ) (he0 : 0 < eps) (hcut : 0 ≤ cutoff) (minB maxB : Nat) (hmin : 1 ≤ minB)
    (hone : (ds1.map List.length).prod = 1) {x f : List Nat} (hx : InRange x (ds1.map dimSize)) (hf : InRange f (ds2.map dimSize))
    (hx0 : entry t.shape t.blocks (x ++ f) ≠ 0) : NoneEmptied fac eps cutoff minB maxB t ds1.length := by
  intro u0 d0 v0 thr0 q1 q2
  have hb : t.blocks ≠ [] := by
    intro h
    apply hx0
    rw [h]
    unfold entry
    cases locateAll t.shape (x ++ f) <;> rfl
  obtain ⟨u, d, v, b, e1, ⟨u1, u2, u3⟩, ⟨d1, d2, d3⟩, ⟨v1, v2, v3⟩, ⟨b1, b2, b3⟩, hp, ho, -⟩ :=
    C79_split_partial fac hfac.sizes hfac.product hfac.ortho t ds1 ds2 hs h1 h2 hc hz hb
  rw [e1] at q1
  obtain ⟨rfl, rfl, rfl⟩ : u = u0 ∧ d = d0 ∧ v = v0 := by
    have := Except.ok.inj q1
    simpa [Prod.mk.injEq] using this
  obtain ⟨hfull, hval⟩ := svdSplit_values hfac t ds1 ds2 hs h1 h2 hc hz e1 d1
  set D : BT G ℝ := mapBlocks RCLike.re d with hD
  let b0 : Dim G := b.map fun s => (s.1, 0)
  have hDs : D.shape = [b0] := d1
  have hDc : Conserving D.shape D.rule D.blocks := conserving_mapBlocks _ d3
  have hsize : dimSize b0 = dimSize b := by simp [b0, dimSize, Function.comp_def]
  have hlk : ∀ j, lookup D.blocks [j] = (lookup d.blocks [j]).map fun b => ⟨b.dims, fun o => RCLike.re (b.f o)⟩ := fun j =>
    FM.lookup_map_snd (fun b : Blk 𝕜 => (⟨b.dims, fun o => RCLike.re (b.f o)⟩ : Blk ℝ)) d.blocks [j]
  have hDfull : ∀ j, j < b0.length → lookup D.blocks [j] ≠ none := by
    intro j hj
    rw [hlk]
    simpa using hfull j (by simpa [b0] using hj)
  have hreD : ∀ k, entry D.shape D.blocks [k] = RCLike.re (entry d.shape d.blocks [k]) := fun k => entry_mapBlocks _ (by simp) d [k]
  have hblk : ∀ j o k, locate b k = some (j, o) → ∃ blk : Blk 𝕜, lookup d.blocks [j] = some blk ∧ o < blk.dims.getD 0 0 ∧ entry d.shape d.blocks [k] = blk.f [o] := by
    intro j o k hl
    obtain ⟨s, w1, w2, _⟩ := locate_iff.1 hl
    obtain ⟨blk, hblk⟩ := Option.ne_none_iff_exists'.1 (hfull j (List.getElem?_eq_some_iff.1 w1).1)
    refine ⟨blk, hblk, ?_, ?_⟩
    · obtain ⟨secs, q1, _, q3⟩ := d3.block _ _ (mem_of_lookup hblk)
      rw [show d.shape = [b0] from d1] at q1
      obtain ⟨s', r, q4, q5, rfl⟩ := sections_cons.1 q1
      cases q5
      rw [q3]
      simp only [b0, List.getElem?_map, w1, Option.map_some, Option.some.injEq] at q4
      subst q4
      exact w2
    · have he := entry_single (lead := []) (e := []) d.blocks rfl (show locate b0 k = some (j, o) by rw [← hl]; exact locate_neutral b k)
      simp only [List.nil_append] at he
      rw [show d.shape = [b0] from d1, he]
      unfold blkAt
      rw [hblk]
  -- a value that is not zero
  rw [hp x f hx hf] at hx0
  obtain ⟨k0, hk0, hne⟩ := Finset.exists_ne_zero_of_sum_ne_zero hx0
  have hk0 := mem_range.1 hk0
  have hd0 : entry d.shape d.blocks [k0] ≠ 0 := fun h => hne (by rw [h]; simp)
  have hval' : ∀ k, k < dimSize b → 0 ≤ entry D.shape D.blocks [k] ∧ (entry d.shape d.blocks [k] ≠ 0 → 0 < entry D.shape D.blocks [k]) := by
    intro k hk
    obtain ⟨⟨j, o⟩, hl⟩ := locate_isSome.2 hk
    obtain ⟨blk, h2, h3, h4⟩ := hblk j o k hl
    obtain ⟨σ, s1, s2, s3⟩ := hval _ _ (mem_of_lookup h2)
    rw [hreD, h4, s3 o h3, RCLike.ofReal_re]
    exact ⟨s2 o, fun h => lt_of_le_of_ne (s2 o) fun h0 => h (by rw [← h0]; simp)⟩
  have hvp := vectorValues_perm hDs hDc hDfull
  rw [hsize] at hvp
  have hvl : (vectorValues D.blocks).length = dimSize b := by rw [hvp.length_eq]; simp
  have hle : dimSize b ≤ (ds1.map dimSize).prod := by
    rw [← card_configs]
    exact columns_le (U := fun e k => entry u.shape u.blocks (e ++ [k])) fun a b ha hb => (ho a b ha hb).1
  obtain ⟨lst, K0, l1, l2, l3, l4, l5, l6, l7, l8, l9⟩ := keepAbove_eq D (by
      rw [← List.length_pos_iff, hvl]; omega) (by rw [hvl]; omega) cutoff hcut (fun x => x ^ 2) (fun x _ => sq_nonneg x) eps maxB minB hmin
  rw [l5] at q2
  have l1' := l1.trans hvp
  have hll : lst.length = dimSize b := by rw [l1'.length_eq]; simp
  have hmem : ∀ k, k < dimSize b → entry D.shape D.blocks [k] ∈ lst := fun k hk => l1'.mem_iff.2 (List.mem_map.2 ⟨k, List.mem_range.2 hk, rfl⟩)
  -- some value is above the threshold
  obtain ⟨k1, hk1, hthr⟩ : ∃ k, k < dimSize b ∧ thr0 < entry D.shape D.blocks [k] := by
    have hy : lst.getD (K0 - 1) 0 ∈ lst := by
      rw [List.getD_eq_getElem _ _ (by omega)]
      exact List.getElem_mem _
    obtain ⟨k, hk, hke⟩ := List.mem_map.1 (l1'.mem_iff.1 hy)
    have hk := List.mem_range.1 hk
    have h0 := Except.ok.inj q2
    rcases (hval' k hk).1.eq_or_lt with h | h
    · refine ⟨k0, hk0, ?_⟩
      rw [← hke, ← h] at h0
      have := (hval' k0 hk0).2 hd0
      simp at h0
      rw [← h0]
      exact this
    · refine ⟨k, hk, ?_⟩
      rw [← hke] at h0
      nlinarith
  intro k
  unfold emptiedIn
  rw [decide_eq_false_iff_not]
  intro h
  obtain ⟨j, _, hj⟩ := Option.bind_eq_some_iff.1 h
  unfold above at hj
  obtain ⟨blk, hl, hj⟩ := Option.map_eq_some_iff.1 hj
  have hjl : j < b.length := by
    obtain ⟨secs, q1, _, q3⟩ := hDc.block _ _ (mem_of_lookup hl)
    rw [hDs] at q1
    obtain ⟨s', r, q4, q5, rfl⟩ := sections_cons.1 q1
    have := (List.getElem?_eq_some_iff.1 q4).1
    simpa [b0] using this
  obtain ⟨⟨j', o⟩, g1⟩ := locate_isSome.2 hk1
  have hj' : j' < b.length := by
    obtain ⟨s, w1, -, -⟩ := locate_iff.1 g1
    exact (List.getElem?_eq_some_iff.1 w1).1
  obtain rfl : j' = j := by omega
  obtain ⟨blk', h2, h3, h4⟩ := hblk j' o k1 g1
  rw [hlk, h2] at hl
  simp only [Option.map_some, Option.some.injEq] at hl
  subst hl
  rw [List.length_eq_zero_iff, List.filter_eq_nil_iff] at hj
  refine hj o (List.mem_range.2 h3) ?_
  rw [hreD, h4] at hthr
  simpa using hthr

end QuantiT.BN
