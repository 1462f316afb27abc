import Verif.Lemmas.Sector
import Verif.Lemmas.TidyLevel
/-
The truncation of a block SVD that discards nothing but zeros.
-/
namespace QuantiT.BN
open Spec BT MP Finset
variable {G 𝕜 : Type} [RCLike 𝕜]

/-- With the tolerance zero the threshold is between zero and the smallest value that is not zero. -/
theorem threshold_zero {lst : List ℝ} (hso : lst.Pairwise (· ≥ ·)) (h0 : ∀ x ∈ lst, 0 ≤ x) (hpos : ∃ x ∈ lst, 0 < x) {K0 : Nat} (hK1 : 1 ≤ K0)
    (hK : K0 ≤ lst.length) (hdrop : weight (fun x => x ^ 2) (lst.drop K0) ≤ 0)
    (hmin : ∀ j < K0, 1 ≤ j → 0 < weight (fun x => x ^ 2) (lst.drop j)) {eps : ℝ} (he0 : 0 < eps) (he1 : eps ≤ 1 / 2) :
    0 ≤ lst.getD (K0 - 1) 0 - 2 * lst.getD (K0 - 1) 0 * eps ∧
      ∀ x ∈ lst, (lst.getD (K0 - 1) 0 - 2 * lst.getD (K0 - 1) 0 * eps < x ↔ 0 < x) := by
  have hK0 : K0 - 1 < lst.length := by omega
  rw [List.getD_eq_getElem _ _ hK0]
  set y := lst[K0 - 1] with hy
  have hmono : ∀ i j (hi : i < lst.length) (hj : j < lst.length), i ≤ j → lst[j] ≤ lst[i] := by
    intro i j hi hj hij
    rcases Nat.eq_or_lt_of_le hij with rfl | h
    · exact le_rfl
    · exact List.pairwise_iff_getElem.1 hso i j hi hj h
  have hnn : ∀ l : List ℝ, ∀ x ∈ l.map (fun x => |x| ^ 2), 0 ≤ x := by
    intro l x hx
    obtain ⟨z, _, rfl⟩ := List.mem_map.1 hx
    positivity
  have hy0 : 0 < y := by
    rcases Nat.eq_or_lt_of_le hK1 with h | h
    · obtain ⟨x, hx, hx0⟩ := hpos
      obtain ⟨i, hi, rfl⟩ := List.mem_iff_getElem.1 hx
      exact lt_of_lt_of_le hx0 (hmono (K0 - 1) i hK0 hi (by omega))
    · have := hmin (K0 - 1) (by omega) (by omega)
      by_contra hcon
      have hz : ∀ x ∈ lst.drop (K0 - 1), x = 0 := by
        intro x hx
        obtain ⟨i, hi, rfl⟩ := List.mem_iff_getElem.1 hx
        rw [List.length_drop] at hi
        have h2 := hmono (K0 - 1) (K0 - 1 + i) hK0 (by omega) (by omega)
        have h3 := h0 _ (List.getElem_mem (show K0 - 1 + i < lst.length by omega))
        rw [List.getElem_drop]
        exact le_antisymm (h2.trans (not_lt.1 hcon)) h3
      have : weight (fun x => x ^ 2) (lst.drop (K0 - 1)) = 0 := by
        unfold weight
        refine List.sum_eq_zero fun x hx => ?_
        obtain ⟨z, hzm, rfl⟩ := List.mem_map.1 hx
        simp [hz z hzm]
      linarith
  have htail : ∀ x ∈ lst.drop K0, x = 0 := by
    intro x hx
    have h1 : |x| ^ 2 ≤ weight (fun x => x ^ 2) (lst.drop K0) :=
      List.single_le_sum (hnn _) _ (List.mem_map_of_mem (f := fun x : ℝ => |x| ^ 2) hx)
    have h2 : |x| ^ 2 ≤ 0 := h1.trans hdrop
    have : |x| ^ 2 = 0 := le_antisymm h2 (by positivity)
    simpa using this
  refine ⟨by nlinarith, fun x hx => ⟨fun h => lt_of_le_of_lt (by nlinarith) h, fun h => ?_⟩⟩
  obtain ⟨i, hi, rfl⟩ := List.mem_iff_getElem.1 hx
  have hi' : i < K0 := by
    by_contra hcon
    have : lst[i] ∈ lst.drop K0 := List.mem_iff_getElem.2 ⟨i - K0, by rw [List.length_drop]; omega, by
      rw [List.getElem_drop]; congr 1; omega⟩
    rw [htail _ this] at h
    exact lt_irrefl _ h
  have := hmono i (K0 - 1) hi hK0 (by omega)
  nlinarith

/-- Among the columns of the matrix `t` with the charge of any given one there is one that is not zero. -/
def ColumnsReached [AddCommMonoid G] (t : BT G 𝕜) (ds1 : Shape G) (n : Dim G) : Prop :=
  ∀ k, k < dimSize n → ∃ e k', InRange e (ds1.map dimSize) ∧ k' < dimSize n ∧ chargeAt n k' = chargeAt n k ∧ entry t.shape t.blocks (e ++ [k']) ≠ 0

/-- When every charge of the columns is that of a column which is not zero, discarding the zeros empties no section. -/
theorem kept_exact [AddCommGroup G] [LinearOrder G] {fac : Blk 𝕜 → Blk 𝕜 × Blk 𝕜 × Blk 𝕜} (hfac : DenseSvd fac) (t : BT G 𝕜) (ds1 : Shape G) (n : Dim G)
    (hs : t.shape = ds1 ++ [n]) (h1 : ds1 ≠ []) (hc : Conserving t.shape t.rule t.blocks) (hz : ∀ d ∈ t.shape, 0 < dimSize d)
    (hne : NoEmpty t.shape) (hsm : (ds1.map dimSize).prod < 2 ^ 63) (eps : ℝ) (he0 : 0 < eps) (he1 : eps ≤ 1 / 2) (maxB : Nat)
    (hmax : (ds1.map dimSize).prod < maxB) (hre : ColumnsReached t ds1 n) :
    NoneEmptied fac eps 0 1 maxB t ds1.length := by
  intro u0 d0 v0 thr0 q1 q2
  have hb : t.blocks ≠ [] := by
    intro h
    obtain ⟨e, k', _, _, _, hx⟩ := hre 0 (hz n (by rw [hs]; simp))
    apply hx
    rw [h]
    unfold entry
    cases locateAll t.shape (e ++ [k']) <;> rfl
  obtain ⟨u, d, v, b, e1, ⟨u1, u2, u3⟩, ⟨d1, d2, d3⟩, ⟨v1, v2, v3⟩, ⟨b1, b2, b3⟩, hp, ho, -⟩ :=
    C79_split_partial fac hfac.sizes hfac.product hfac.ortho t ds1 [n] hs h1 (by simp) hc hz hb
  have hcharges := C79_charges fac hfac.sizes hfac.product hfac.ortho t ds1 [n] hs h1 (by simp) hc hz hb e1 u1
  rw [e1] at q1
  obtain ⟨rfl, rfl, rfl⟩ : u = u0 ∧ d = d0 ∧ v = v0 := by
    have := Except.ok.inj q1
    simpa [Prod.mk.injEq] using this
  obtain ⟨hfull, hval⟩ := svdSplit_values hfac t ds1 [n] hs h1 (by simp) hc hz e1 d1
  have hpos := svdSplit_noEmpty t ds1 [n] hs h1 (by simp) hc hz hne e1 d1
  have v1 : v.shape = [flipped n, b] := v1
  set D : BT G ℝ := mapBlocks RCLike.re d with hD
  let b0 : Dim G := b.map fun s => (s.1, 0)
  have hDs : D.shape = [b0] := d1
  have hDc : Conserving D.shape D.rule D.blocks := conserving_mapBlocks _ d3
  have hsize : dimSize b0 = dimSize b := by simp [b0, dimSize, Function.comp_def]
  have hlk : ∀ j, lookup D.blocks [j] = (lookup d.blocks [j]).map fun b => ⟨b.dims, fun o => RCLike.re (b.f o)⟩ := fun j =>
    FM.lookup_map_snd (fun b : Blk 𝕜 => (⟨b.dims, fun o => RCLike.re (b.f o)⟩ : Blk ℝ)) d.blocks [j]
  have hDfull : ∀ j, j < b0.length → lookup D.blocks [j] ≠ none := by
    intro j hj
    rw [hlk]
    simpa using hfull j (by simpa [b0] using hj)
  -- the charge of an element of the bond is that of the columns that use it
  have hch : ∀ f k, entry v.shape v.blocks [f, k] ≠ 0 → chargeAt b k = chargeAt n f := by
    intro f k h
    have := entry_charge v3 h
    rw [v1, v2] at this
    simp only [List.zipWith_cons_cons, List.zipWith_nil_left, List.sum_cons, List.sum_nil, add_zero, chargeAt_flipped] at this
    exact (neg_add_eq_zero.1 this).symm
  -- every section has a value that is not zero
  have hsec : ∀ j, j < b.length → ∃ k o, locate b k = some (j, o) ∧ k < dimSize b ∧ entry d.shape d.blocks [k] ≠ 0 := by
    intro j hj
    have hsj : b[j]? = some b[j] := List.getElem?_eq_getElem hj
    have hloc : locate b (dimSize (b.take j) + 0) = some (j, 0) := locate_iff.2 ⟨b[j], hsj, hpos _ (List.getElem_mem hj), rfl⟩
    generalize dimSize (b.take j) + 0 = k at hloc
    have hk : k < dimSize b := locate_isSome.1 ⟨_, hloc⟩
    have hvk := (ho k k hk hk).2
    rw [if_pos rfl] at hvk
    obtain ⟨e, he, hne1⟩ := Finset.exists_ne_zero_of_sum_ne_zero (hvk.trans_ne one_ne_zero)
    obtain ⟨f, hf, rfl⟩ : ∃ f, f < dimSize n ∧ e = [f] := by
      have he := MP.mem_configs.1 he
      unfold InRange at he
      obtain ⟨f, e', hf, he', rfl⟩ := List.forall₂_cons_right_iff.1 he
      cases he'
      exact ⟨f, hf, rfl⟩
    have c1 := hch f k fun h => hne1 (by rw [List.singleton_append, h, mul_zero])
    obtain ⟨x, f', hx, hf', c2, hx0⟩ := hre f hf
    rw [hp x [f'] hx (.cons hf' .nil)] at hx0
    obtain ⟨k', hk', hne2⟩ := Finset.exists_ne_zero_of_sum_ne_zero hx0
    have c3 := hch f' k' fun h => hne2 (by rw [List.singleton_append, h, star_zero, mul_zero])
    have hk' := mem_range.1 hk'
    obtain ⟨⟨j', o'⟩, hl'⟩ := locate_isSome.2 hk'
    obtain ⟨s', hs', _, _⟩ := locate_iff.1 hl'
    have hjj : j' = j := by
      have h1 : s'.2 = b[j].2 := by
        rw [← chargeAt_eq hl' hs', ← chargeAt_eq hloc hsj, c3, c2, c1]
      obtain ⟨hj', rfl⟩ := List.getElem?_eq_some_iff.1 hs'
      exact (List.Nodup.getElem_inj_iff hcharges (hi := by simpa using hj') (hj := by simpa using hj)).1 (by simpa using h1)
    subst hjj
    exact ⟨k', o', hl', hk', fun h => hne2 (by rw [h]; simp)⟩
  -- the values
  have hreD : ∀ k, entry D.shape D.blocks [k] = RCLike.re (entry d.shape d.blocks [k]) := fun k => entry_mapBlocks _ (by simp) d [k]
  have hblk : ∀ j o k, locate b k = some (j, o) → ∃ blk : Blk 𝕜, lookup d.blocks [j] = some blk ∧ o < blk.dims.getD 0 0 ∧ entry d.shape d.blocks [k] = blk.f [o] := by
    intro j o k hl
    obtain ⟨s, w1, w2, _⟩ := locate_iff.1 hl
    obtain ⟨blk, hblk⟩ := Option.ne_none_iff_exists'.1 (hfull j (List.getElem?_eq_some_iff.1 w1).1)
    refine ⟨blk, hblk, ?_, ?_⟩
    · obtain ⟨secs, q1, _, q3⟩ := d3.block _ _ (mem_of_lookup hblk)
      rw [show d.shape = [b0] from d1] at q1
      obtain ⟨s', r, q4, q5, rfl⟩ := sections_cons.1 q1
      cases q5
      rw [q3]
      simp only [b0, List.getElem?_map, w1, Option.map_some, Option.some.injEq] at q4
      subst q4
      exact w2
    · have he := entry_single (lead := []) (e := []) d.blocks rfl (show locate b0 k = some (j, o) by rw [← hl]; exact locate_neutral b k)
      simp only [List.nil_append] at he
      rw [show d.shape = [b0] from d1, he]
      unfold blkAt
      rw [hblk]
  have hval' : ∀ k, k < dimSize b → 0 ≤ entry D.shape D.blocks [k] ∧ (entry d.shape d.blocks [k] ≠ 0 → 0 < entry D.shape D.blocks [k]) := by
    intro k hk
    obtain ⟨⟨j, o⟩, hl⟩ := locate_isSome.2 hk
    obtain ⟨blk, h2, h3, h4⟩ := hblk j o k hl
    obtain ⟨σ, s1, s2, s3⟩ := hval _ _ (mem_of_lookup h2)
    rw [hreD, h4, s3 o h3, RCLike.ofReal_re]
    exact ⟨s2 o, fun h => lt_of_le_of_ne (s2 o) fun h0 => h (by rw [← h0]; simp)⟩
  have hvp := vectorValues_perm hDs hDc hDfull
  rw [hsize] at hvp
  have hvl : (vectorValues D.blocks).length = dimSize b := by rw [hvp.length_eq]; simp
  have hle : dimSize b ≤ (ds1.map dimSize).prod := by
    rw [← card_configs]
    exact columns_le (U := fun e k => entry u.shape u.blocks (e ++ [k])) fun a b ha hb => (ho a b ha hb).1
  have hlen0 : 0 < b.length := List.length_pos_iff.2 b1
  obtain ⟨k0, _, _, hk0, hk0'⟩ := hsec 0 hlen0
  have hbpos : 0 < dimSize b := by omega
  obtain ⟨lst, K0, l1, l2, l3, l4, l5, l6, l7, l8, l9⟩ := keepAbove_eq D (by
      rw [← List.length_pos_iff, hvl]; exact hbpos) (by rw [hvl]; omega) 0 le_rfl (fun x => x ^ 2) (fun x _ => sq_nonneg x) eps maxB 1 le_rfl
  rw [l5] at q2
  have l1' := l1.trans hvp
  have hll : lst.length = dimSize b := by rw [l1'.length_eq]; simp
  have hmem : ∀ k, k < dimSize b → entry D.shape D.blocks [k] ∈ lst := fun k hk => l1'.mem_iff.2 (List.mem_map.2 ⟨k, List.mem_range.2 hk, rfl⟩)
  obtain ⟨t1, t2⟩ := threshold_zero l2 (fun x hx => by
      obtain ⟨k, hk, rfl⟩ := List.mem_map.1 (l1'.mem_iff.1 hx)
      exact (hval' k (List.mem_range.1 hk)).1) ⟨_, hmem k0 hk0, (hval' k0 hk0).2 hk0'⟩ l3 l4 (by simpa using l8 (by omega)) (by simpa using l9) he0 he1
  rw [Except.ok.inj q2] at t1 t2
  intro k
  unfold emptiedIn
  rw [decide_eq_false_iff_not]
  intro h
  obtain ⟨j, _, hj⟩ := Option.bind_eq_some_iff.1 h
  unfold above at hj
  obtain ⟨blk, hl, hj⟩ := Option.map_eq_some_iff.1 hj
  have hjl : j < b.length := by
    obtain ⟨secs, q1, _, q3⟩ := hDc.block _ _ (mem_of_lookup hl)
    rw [hDs] at q1
    obtain ⟨s', r, q4, q5, rfl⟩ := sections_cons.1 q1
    have := (List.getElem?_eq_some_iff.1 q4).1
    simpa [b0] using this
  obtain ⟨k', o, g1, g2, g3⟩ := hsec j hjl
  obtain ⟨blk', h2, h3, h4⟩ := hblk j o k' g1
  rw [hlk, h2] at hl
  simp only [Option.map_some, Option.some.injEq] at hl
  subst hl
  rw [List.length_eq_zero_iff, List.filter_eq_nil_iff] at hj
  refine hj o (List.mem_range.2 h3) ?_
  have := (t2 _ (hmem k' g2)).2 ((hval' k' g2).2 g3)
  rw [hreD, h4] at this
  simpa using this

theorem tidy_of_noneEmptied [AddCommGroup G] [LinearOrder G] {fac : Blk 𝕜 → Blk 𝕜 × Blk 𝕜 × Blk 𝕜} {eps cutoff : ℝ} {minB maxB : Nat} {t : BT G 𝕜} {split : Nat}
    (h : NoneEmptied fac eps cutoff minB maxB t split) : Tidy fac eps cutoff minB maxB t split := fun u d v thr h1 h2 =>
  ⟨isolated_of_none fun _ _ => h u d v thr h1 h2 _, isolated_of_none fun _ _ => h u d v thr h1 h2 _⟩

/-- The truncated SVD with the tolerance zero: the product is exact, all values are positive, both factors are isometries. -/
theorem svdCutB_exact [AddCommGroup G] [LinearOrder G] {fac : Blk 𝕜 → Blk 𝕜 × Blk 𝕜 × Blk 𝕜} (hfac : DenseSvd fac) (t : BT G 𝕜) (ds1 : Shape G) (n : Dim G)
    (hs : t.shape = ds1 ++ [n]) (h1 : ds1 ≠ []) (hc : Conserving t.shape t.rule t.blocks) (hz : ∀ d ∈ t.shape, 0 < dimSize d)
    (hne : NoEmpty t.shape) (hsm : (ds1.map dimSize).prod < 2 ^ 63) (eps : ℝ) (he0 : 0 < eps) (he1 : eps ≤ 1 / 2) (maxB : Nat)
    (hmax : (ds1.map dimSize).prod < maxB) (hre : ColumnsReached t ds1 n) :
    ∃ (u v : BT G 𝕜) (d : BT G ℝ) (b : Dim G), svdCutB fac eps t ds1.length 0 1 maxB (fun x => x ^ 2) = .ok (u, ofRealB d, v) ∧
      (u.shape = ds1 ++ [b] ∧ u.rule = t.rule ∧ Conserving u.shape u.rule u.blocks) ∧
      (d.shape = neutralised [b] ∧ d.rule = 0 ∧ Conserving d.shape d.rule d.blocks) ∧
      (v.shape = [flipped n, b] ∧ v.rule = 0 ∧ Conserving v.shape v.rule v.blocks) ∧
      (b ≠ [] ∧ b.length ≤ n.length ∧ (∀ s ∈ b, 0 < s.1) ∧ dimSize b ≤ dimSize n) ∧
      (∀ k, k < dimSize b → 0 < entry d.shape d.blocks [k]) ∧
      (∀ e f, InRange e (ds1.map dimSize) → f < dimSize n → entry t.shape t.blocks (e ++ [f]) = ∑ k ∈ range (dimSize b),
          entry u.shape u.blocks (e ++ [k]) * ((entry d.shape d.blocks [k] : ℝ) : 𝕜) * star (entry v.shape v.blocks [f, k])) ∧
      (∀ k k', k < dimSize b → k' < dimSize b →
        (∑ e ∈ configs (ds1.map dimSize), star (entry u.shape u.blocks (e ++ [k])) * entry u.shape u.blocks (e ++ [k']) =
          if k = k' then 1 else 0) ∧
        (∑ f ∈ range (dimSize n), star (entry v.shape v.blocks [f, k]) * entry v.shape v.blocks [f, k'] = if k = k' then 1 else 0)) := by
  have hkept := kept_exact hfac t ds1 n hs h1 hc hz hne hsm eps he0 he1 maxB hmax hre
  obtain ⟨x, f, hx, hf, -, hx0⟩ := hre 0 (hz n (by rw [hs]; simp))
  obtain ⟨u, v, u', v', d', b, b', σ, lst, K0, live, old, e1, ⟨u1, u2, u3⟩, ⟨d1, d2, d3⟩, ⟨v1, v2, v3⟩, ⟨b1, b2, b3, b4⟩, hσ0, hp, ho,
    ⟨l1, l2, l3, l4, l5, l6, l7, l8⟩, hD, hlive⟩ := svdCutB_columns hfac t ds1 [n] hs h1 (by simp) hc hz ⟨x, [f], hx, .cons hf .nil, hx0⟩ hsm eps 0 le_rfl 1 maxB
      le_rfl (tidy_of_noneEmptied hkept)
  have hlive := hlive hkept
  have hll : lst.length = dimSize b := by rw [l1.length_eq]; simp
  have hle : dimSize b ≤ (ds1.map dimSize).prod := by
    rw [← card_configs]
    exact columns_le (U := fun e k => entry u.shape u.blocks (e ++ [k])) fun a b ha hb => (ho a b ha hb).1
  have hposv : ∃ y ∈ lst, 0 < y := by
    rw [hp x [f] (MP.mem_configs.2 hx) (MP.mem_configs.2 (.cons hf .nil))] at hx0
    obtain ⟨k, hk, hne2⟩ := Finset.exists_ne_zero_of_sum_ne_zero hx0
    refine ⟨σ k, l1.mem_iff.2 (List.mem_map.2 ⟨k, List.mem_range.2 (mem_range.1 hk), rfl⟩), lt_of_le_of_ne (hσ0 k (mem_range.1 hk)) fun h0 => hne2 ?_⟩
    rw [← h0]
    simp
  obtain ⟨t1, t2⟩ := threshold_zero l2 (fun y hy => by
      obtain ⟨k, hk, rfl⟩ := List.mem_map.1 (l1.mem_iff.1 hy)
      exact hσ0 k (List.mem_range.1 hk)) hposv l3 l4 (by simpa using l7 (by omega)) (by simpa using l8) he0 he1
  set thr := lst.getD (K0 - 1) 0 - 2 * lst.getD (K0 - 1) 0 * eps with hthr
  have v1 : v'.shape = [flipped n, b'] := v1
  have hcol : ∀ k, k < dimSize b' → ∀ f, f < dimSize n → entry v'.shape v'.blocks [f, k] = entry v.shape v.blocks [f, old k] := fun k hk f hf =>
    hD.vLive k [f] hk (hlive k hk) (MP.mem_configs.2 (.cons hf .nil))
  have hort : ∀ k k', k < dimSize b' → k' < dimSize b' →
        (∑ e ∈ configs (ds1.map dimSize), star (entry u'.shape u'.blocks (e ++ [k])) * entry u'.shape u'.blocks (e ++ [k']) =
          if k = k' then 1 else 0) ∧
        (∑ f ∈ range (dimSize n), star (entry v'.shape v'.blocks [f, k]) * entry v'.shape v'.blocks [f, k'] = if k = k' then 1 else 0) := by
    intro k k' hk hk'
    have i1 := (hD.into k hk (hlive k hk)).1
    have i2 := (hD.into k' hk' (hlive k' hk')).1
    obtain ⟨o1, o2⟩ := ho (old k) (old k') i1 i2
    have hinj : (old k = old k') ↔ k = k' := ⟨hD.inj k k' hk hk' (hlive k hk) (hlive k' hk'), fun h => by rw [h]⟩
    simp only [hinj] at o1 o2
    constructor
    · rw [← o1]
      exact sum_congr rfl fun e he => by rw [hD.uLive k e hk (hlive k hk) he, hD.uLive k' e hk' (hlive k' hk') he]
    · rw [← o2]
      rw [show ([n] : Shape G).map dimSize = [dimSize n] from rfl, sum_configs_cons']
      refine sum_congr rfl fun f hf => ?_
      rw [sum_configs_nil, hcol k hk f (mem_range.1 hf), hcol k' hk' f (mem_range.1 hf)]
      rfl
  refine ⟨u', v', d', b', e1, ⟨u1, u2, u3⟩, ⟨d1, d2, d3⟩, ⟨v1, v2, v3⟩, ⟨b1, by simpa using b3, b4 hne, ?_⟩, ?_, ?_, hort⟩
  · have := columns_le (left := [dimSize n]) (K := dimSize b') (U := fun e k => entry v'.shape v'.blocks (e ++ [k])) fun a c ha hc => by
      rw [sum_configs_cons', ← (hort a c ha hc).2]
      exact sum_congr rfl fun f _ => by rw [sum_configs_nil]; rfl
    rw [card_configs] at this
    simpa using this
  · intro k hk
    rw [hD.dLive k hk (hlive k hk)]
    exact lt_of_le_of_lt t1 (hD.into k hk (hlive k hk)).2
  · intro e f he hf
    rw [hp e [f] (MP.mem_configs.2 he) (MP.mem_configs.2 (.cons hf .nil))]
    rw [hD.sum_live (fun k => entry u'.shape u'.blocks (e ++ [k]) * ((entry d'.shape d'.blocks [k] : ℝ) : 𝕜) * star (entry v'.shape v'.blocks [f, k]))
      (fun k => entry u.shape u.blocks (e ++ [k]) * (σ k : 𝕜) * star (entry v.shape v.blocks [f, k])) (fun k hk hl => by
        rw [hD.dLive k hk hl, hD.uLive k e hk hl (MP.mem_configs.2 he), hcol k hk f hf]) (fun k hk hl => absurd (hlive k hk) hl)]
    rw [sum_filter]
    refine sum_congr rfl fun k hk => ?_
    have hk := mem_range.1 hk
    split
    · rfl
    · rename_i hlt
      rw [t2 _ (l1.mem_iff.2 (List.mem_map.2 ⟨k, List.mem_range.2 hk, rfl⟩))] at hlt
      rw [le_antisymm (not_lt.1 hlt) (hσ0 k hk)]
      simp

end QuantiT.BN
