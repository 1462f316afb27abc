import Verif.Lemmas.BlockCut2
/-
A minimum bond of zero in the truncated SVD of a block tensor.
-/
namespace QuantiT.BN
open Spec BT MP Finset
variable {G 𝕜 : Type} [RCLike 𝕜]

theorem keepAbove_zero [Field α] [LinearOrder α] [IsStrictOrderedRing α] (d : BT G α) (hne : vectorValues d.blocks ≠ [])
    (hlen : (vectorValues d.blocks).length < 2 ^ 63) (tol : α) (pw : α → α) (eps : α) (maxS : Nat) (hmax : 1 ≤ maxS)
    (hw : pw tol < weight pw (vectorValues d.blocks)) : keepAbove d maxS 0 tol pw eps = keepAbove d maxS 1 tol pw eps := by
  have hp : ((vectorValues d.blocks).insertionSort (· ≥ ·)).Perm (vectorValues d.blocks) := List.perm_insertionSort _ _
  have hl := hp.length_eq
  unfold keepAbove
  have e : (allValues d).insertionSort (· ≥ ·) = (vectorValues d.blocks).insertionSort (· ≥ ·) := rfl
  rw [e]
  dsimp only
  rw [QuantiT.C37_zero_min (⟨((vectorValues d.blocks).insertionSort (· ≥ ·)).length, [(vectorValues d.blocks).insertionSort (· ≥ ·)]⟩ : LA.Rows α)
    (by simp) (by simp only; rw [hl]; exact List.length_pos_iff.2 hne) (by simp only; omega) tol pw maxS hmax ?_]
  intro h
  have h := h _ (List.mem_singleton.2 rfl)
  rw [List.drop_zero] at h
  have : weight pw ((vectorValues d.blocks).insertionSort (· ≥ ·)) = weight pw (vectorValues d.blocks) := (hp.map _).sum_eq
  rw [this] at h
  exact absurd hw (not_lt.2 h)

/-- The threshold for a minimum of zero is the one for a minimum of one when the tensor weighs more than the cutoff. -/
theorem keepAbove_same [AddCommGroup G] [LinearOrder G] {fac : Blk 𝕜 → Blk 𝕜 × Blk 𝕜 × Blk 𝕜} (hfac : DenseSvd fac) (t : BT G 𝕜) (ds1 ds2 : Shape G)
    (hs : t.shape = ds1 ++ ds2) (h1 : ds1 ≠ []) (h2 : ds2 ≠ []) (hc : Conserving t.shape t.rule t.blocks) (hz : ∀ d ∈ t.shape, 0 < dimSize d)
    (hnz : ∃ e1 e2, InRange e1 (ds1.map dimSize) ∧ InRange e2 (ds2.map dimSize) ∧ entry t.shape t.blocks (e1 ++ e2) ≠ 0)
    (hsm : (ds1.map dimSize).prod < 2 ^ 63) (eps cutoff : ℝ) (maxB : Nat) (hmax : 1 ≤ maxB)
    (hw : cutoff ^ 2 < ∑ e1 ∈ configs (ds1.map dimSize), ∑ e2 ∈ configs (ds2.map dimSize), ‖entry t.shape t.blocks (e1 ++ e2)‖ ^ 2)
    {u d v : BT G 𝕜} (hf : svdSplit fac t ds1.length = .ok (u, d, v)) :
    keepAbove (mapBlocks RCLike.re d) maxB 0 cutoff (fun x => x ^ 2) eps = keepAbove (mapBlocks RCLike.re d) maxB 1 cutoff (fun x => x ^ 2) eps := by
  obtain ⟨x1, x2, hx1, hx2, hx⟩ := hnz
  have hb : t.blocks ≠ [] := by
    intro h
    apply hx
    rw [h]
    unfold entry
    cases locateAll t.shape (x1 ++ x2) <;> rfl
  obtain ⟨u', d', v', b, e1, ⟨u1, u2, u3⟩, ⟨d1, d2, d3⟩, ⟨v1, v2, v3⟩, ⟨b1, b2, b3⟩, hp, ho, -⟩ :=
    C79_split_partial fac hfac.sizes hfac.product hfac.ortho t ds1 ds2 hs h1 h2 hc hz hb
  rw [hf] at e1
  cases e1
  have e1 := hf
  obtain ⟨hfull, hval⟩ := svdSplit_values hfac t ds1 ds2 hs h1 h2 hc hz e1 d1
  -- the values as real numbers
  set D : BT G ℝ := mapBlocks RCLike.re d with hD
  let b0 : Dim G := b.map fun s => (s.1, 0)
  have hDs : D.shape = [b0] := d1
  have hDc : Conserving D.shape D.rule D.blocks := conserving_mapBlocks _ d3
  have hDb : ∀ kb ∈ D.blocks, ∃ σ : Nat → ℝ, Antitone σ ∧ (∀ i, 0 ≤ σ i) ∧ ∀ i, i < kb.2.dims.getD 0 0 → kb.2.f [i] = σ i := by
    intro kb hkb
    obtain ⟨⟨k, blk⟩, hm, rfl⟩ := List.mem_map.1 hkb
    obtain ⟨σ, s1, s2, s3⟩ := hval k blk hm
    refine ⟨σ, s1, s2, fun i hi => ?_⟩
    show RCLike.re (blk.f [i]) = _
    rw [s3 i hi, RCLike.ofReal_re]
  have hdesc : Descending D.blocks := by
    intro kb hkb i j hij hj
    obtain ⟨σ, s1, s2, s3⟩ := hDb kb hkb
    rw [s3 i (by omega), s3 j hj]
    exact s1 hij
  have hDfull : ∀ j, j < b0.length → lookup D.blocks [j] ≠ none := by
    intro j hj
    have : lookup D.blocks [j] = (lookup d.blocks [j]).map fun b => ⟨b.dims, fun o => RCLike.re (b.f o)⟩ :=
      FM.lookup_map_snd (fun b : Blk 𝕜 => (⟨b.dims, fun o => RCLike.re (b.f o)⟩ : Blk ℝ)) d.blocks [j]
    rw [this]
    simpa using hfull j (by simpa [b0] using hj)
  have hsize : dimSize b0 = dimSize b := by simp [b0, dimSize, Function.comp_def]
  have hloc : ∀ k, k < dimSize b → ∃ x : ℝ, 0 ≤ x ∧ entry d.shape d.blocks [k] = (x : 𝕜) := by
    intro k hk
    obtain ⟨⟨n, ko⟩, hl⟩ := locate_isSome.2 (show k < dimSize b0 by omega)
    have he := entry_single (lead := []) (e := []) d.blocks rfl hl
    simp only [List.nil_append] at he
    rw [show d.shape = [b0] from d1, he]
    unfold blkAt
    cases hlk : lookup d.blocks [n] with
    | none => exact ⟨0, le_rfl, by simp⟩
    | some blk =>
      obtain ⟨σ, s1, s2, s3⟩ := hval _ _ (mem_of_lookup hlk)
      refine ⟨σ ko, s2 _, s3 ko ?_⟩
      obtain ⟨secs, q1, _, q3⟩ := d3.block _ _ (mem_of_lookup hlk)
      rw [show d.shape = [b0] from d1] at q1
      obtain ⟨s', r, q4, q5, rfl⟩ := sections_cons.1 q1
      cases q5
      obtain ⟨s, w1, w2, _⟩ := locate_iff.1 hl
      rw [w1] at q4
      cases q4
      rw [q3]
      exact w2
  have hre : ∀ k, entry D.shape D.blocks [k] = RCLike.re (entry d.shape d.blocks [k]) := fun k => entry_mapBlocks _ (by simp) d [k]
  have hσ0 : ∀ k, k < dimSize b → 0 ≤ entry D.shape D.blocks [k] := by
    intro k hk
    obtain ⟨x, p1, p2⟩ := hloc k hk
    rw [hre, p2, RCLike.ofReal_re]
    exact p1
  have hσ : ∀ k, k < dimSize b → entry d.shape d.blocks [k] = ((entry D.shape D.blocks [k] : ℝ) : 𝕜) := by
    intro k hk
    obtain ⟨x, p1, p2⟩ := hloc k hk
    rw [hre, p2, RCLike.ofReal_re]
  have hpos : 0 < dimSize b := by
    rcases Nat.eq_zero_or_pos (dimSize b) with h | h
    · rw [hp x1 x2 hx1 hx2, h] at hx
      simp at hx
    · exact h
  have hle : dimSize b ≤ (ds1.map dimSize).prod := by
    rw [← card_configs]
    exact columns_le (U := fun e k => entry u.shape u.blocks (e ++ [k])) fun a b ha hb => (ho a b ha hb).1
  have hvp := vectorValues_perm hDs hDc hDfull
  rw [hsize] at hvp
  have hvl : (vectorValues D.blocks).length = dimSize b := by rw [hvp.length_eq]; simp
  refine keepAbove_zero _ (by rw [← List.length_pos_iff, hvl]; exact hpos) (by rw [hvl]; omega) cutoff (fun x => x ^ 2) eps maxB hmax (lt_of_lt_of_eq hw ?_)
  have hwt : weight (fun x : ℝ => x ^ 2) (vectorValues D.blocks) = ∑ k ∈ range (dimSize b), entry D.shape D.blocks [k] ^ 2 := by
    unfold weight
    rw [(hvp.map _).sum_eq, List.map_map, ← List.sum_toFinset _ List.nodup_range, List.toFinset_range]
    exact sum_congr rfl fun k _ => by simp
  rw [hwt, ← LA.frob_terms (configs (ds1.map dimSize)) (configs (ds2.map dimSize)) (dimSize b) (fun e k => entry u.shape u.blocks (e ++ [k]))
    (fun k => entry D.shape D.blocks [k]) (fun e k => entry v.shape v.blocks (e ++ [k])) (fun a b ha hb => (ho a b ha hb).1) (fun a b ha hb => (ho a b ha hb).2)]
  refine sum_congr rfl fun y1 hy1 => sum_congr rfl fun y2 hy2 => ?_
  rw [hp y1 y2 (MP.mem_configs.1 hy1) (MP.mem_configs.1 hy2)]
  congr 2
  exact sum_congr rfl fun k hk => by rw [hσ k (mem_range.1 hk)]

/-- The new sites of an update with truncation; a minimum of zero counts as one when the cutoff is below one. -/
theorem new_sitesB_zero [AddCommGroup G] [LinearOrder G] {fac : Blk 𝕜 → Blk 𝕜 × Blk 𝕜 × Blk 𝕜} (hfac : DenseSvd fac)
    {t : BT G 𝕜} {θ : Blk 𝕜} {l s t' r : Dim G} (hR : Rep t θ) (hs : t.shape = [l, s, t', r])
    (hz : ∀ d ∈ t.shape, 0 < dimSize d) (hsm : l.length * s.length < 2 ^ 63) (hsz : dimSize l * dimSize s < 2 ^ 63)
    (h1 : ‖DM.toV [dimSize l, dimSize s, dimSize t', dimSize r] θ‖ = 1) (eps cutoff : ℝ) (he0 : 0 < eps) (he1 : eps ≤ 1 / 2) (hcut : 0 ≤ cutoff)
    (minB maxB : Nat) (hmin : 1 ≤ minB ∨ cutoff < 1 ∧ 1 ≤ maxB) (htidy : Tidy fac eps cutoff minB maxB t 2) (fwd : Bool) (fe : List Nat → ℝ) :
    ∃ A' B' b φ c p K0, (andNext (svdCutB fac eps t 2 cutoff minB maxB fun x => x ^ 2) fun f =>
        andNext (unitSumB f.2.1) fun d =>
        andNext (item (sc fe : BT G ℝ)) fun E =>
        if fwd then
          andNext (mulInPlace f.2.2 d) fun vd =>
          andNext (permute (conj star vd) [2, 0, 1]) fun nx =>
          some (.ok (E, f.1, nx))
        else
          andNext (do reshapeAs false d (← unsqueezedShape d)) fun _ =>
          andNext (mulInPlace f.1 d) fun ud =>
          andNext (permute (conj star f.2.2) [2, 0, 1]) fun nx =>
          some (.ok (E, ud, nx))) = some (.ok (fe [], A', B')) ∧
      A'.shape = [l, s, b] ∧ B'.shape = [flipped b, t', r] ∧ Sound A' ∧ Sound B' ∧ A'.rule + B'.rule = t.rule ∧
      CutSites (denseOf A') (denseOf B') θ φ fwd eps cutoff minB maxB (dimSize l) (dimSize s) (dimSize t') (dimSize r) (dimSize b) p K0 c := by
  rcases Nat.eq_zero_or_pos minB with rfl | h0
  · obtain ⟨ht, hm⟩ := hmin.resolve_left (by omega)
    have hnz : ∃ e1 e2, InRange e1 ([l, s].map dimSize) ∧ InRange e2 ([t', r].map dimSize) ∧ entry t.shape t.blocks (e1 ++ e2) ≠ 0 := by
      by_contra hcon
      have : DM.toV [dimSize l, dimSize s, dimSize t', dimSize r] θ = 0 := by
        ext o
        have ho := MP.mem_configs.1 o.2
        obtain ⟨ov, hov⟩ := o
        unfold InRange at ho
        obtain ⟨x, o1, hx, ho1, rfl⟩ := List.forall₂_cons_right_iff.1 ho
        obtain ⟨y, o2, hy, ho2, rfl⟩ := List.forall₂_cons_right_iff.1 ho1
        obtain ⟨y', o3, hy', ho3, rfl⟩ := List.forall₂_cons_right_iff.1 ho2
        obtain ⟨z, o4, hz, ho4, rfl⟩ := List.forall₂_cons_right_iff.1 ho3
        cases ho4
        show θ.f [x, y, y', z] = 0
        by_contra hne
        refine hcon ⟨[x, y], [y', z], .cons hx (.cons hy .nil), .cons hy' (.cons hz .nil), ?_⟩
        rw [hR.f (by rw [hs]; exact .cons hx (.cons hy (.cons hy' (.cons hz .nil))))] at hne
        exact hne
      rw [this, norm_zero] at h1
      exact zero_ne_one h1
    have hkeep : ∀ u d v, svdSplit fac t 2 = .ok (u, d, v) → keepAbove (mapBlocks RCLike.re d) maxB 0 cutoff (fun x => x ^ 2) eps =
        keepAbove (mapBlocks RCLike.re d) maxB 1 cutoff (fun x => x ^ 2) eps := by
      intro u d v hf
      refine keepAbove_same hfac t [l, s] [t', r] hs (by simp) (by simp) hR.1.1 hz hnz (by simpa using hsz) eps cutoff maxB hm ?_ hf
      have : ∑ e1 ∈ configs ([l, s].map dimSize), ∑ e2 ∈ configs ([t', r].map dimSize), ‖entry t.shape t.blocks (e1 ++ e2)‖ ^ 2 = 1 := by
        have h1' : ‖DM.toV [dimSize l, dimSize s, dimSize t', dimSize r] θ‖ ^ 2 = 1 := by rw [h1]; norm_num
        rw [DM.norm_toV, show [dimSize l, dimSize s, dimSize t', dimSize r] = [l, s].map dimSize ++ [t', r].map dimSize from rfl, sum_configs_append,
          sum_product] at h1'
        rw [← h1']
        refine sum_congr rfl fun e he => sum_congr rfl fun f hf => ?_
        rw [hR.f]
        rw [hs]
        exact List.rel_append (MP.mem_configs.1 he) (MP.mem_configs.1 hf)
      rw [this]
      nlinarith
    have hsvd : svdCutB fac eps t 2 cutoff 0 maxB (fun x => x ^ 2) = svdCutB fac eps t 2 cutoff 1 maxB (fun x => x ^ 2) := by
      unfold svdCutB
      cases hf : svdSplit fac t 2 with
      | error e => rfl
      | ok f =>
        obtain ⟨u, d, v⟩ := f
        simp only [bind, Except.bind, truncateSvd, truncateImpl]
        rw [hkeep u d v hf]
    obtain ⟨A', B', b, φ, c, p, K0, a1, a2, a3, a4, a5, a6, a7⟩ := new_sitesB_cut hfac hR hs hz hsm hsz h1 eps cutoff he0 he1 hcut 1 maxB le_rfl
      (fun u d v thr hf hk => htidy u d v thr hf ((hkeep u d v hf).trans hk)) fwd fe
    rw [hsvd]
    refine ⟨A', B', b, φ, c, p, K0, a1, a2, a3, a4, a5, a6, { a7 with limit := ⟨a7.limit.1, by have := a7.limit.2; omega⟩, min := by omega, others := ?_ }⟩
    intro χ k' x y hχ hx
    refine ⟨(a7.others χ k' x y hχ hx).1, fun _ hk => ?_⟩
    rcases Nat.eq_zero_or_pos k' with rfl | h2
    · exfalso
      have h0 : DM.toV [dimSize l, dimSize s, dimSize t', dimSize r] χ = 0 := by
        ext o
        show χ.f o.1 = 0
        rw [hx o.1 o.2]
        simp [terms]
      rw [h0] at hχ
      simp at hχ
    · exact (a7.others χ k' x y hχ hx).2 h2 hk
  · exact new_sitesB_cut hfac hR hs hz hsm hsz h1 eps cutoff he0 he1 hcut minB maxB h0 htidy fwd fe

end QuantiT.BN
