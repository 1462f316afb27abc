import Verif.Lemmas.CutColumns
import Verif.Lemmas.DeadSites
import Verif.Lemmas.Schmidt
import Verif.Lemmas.SemiUpdate
import Verif.Props.BlockDmrg
import Verif.Spec.BlockCut
/-
The new sites of the block DMRG with truncation.
-/
namespace QuantiT.BN
open Spec BT MP Finset
variable {G 𝕜 : Type} [RCLike 𝕜]

/-- There are at most as many orthonormal columns as rows. -/
theorem columns_le {left : List Nat} {K : Nat} {U : List Nat → Nat → 𝕜}
    (hU : ∀ a b, a < K → b < K → ∑ e ∈ configs left, star (U e a) * U e b = if a = b then 1 else 0) : K ≤ (configs left).card := by
  let w : Fin K → EuclideanSpace 𝕜 (configs left) := fun k => WithLp.toLp 2 fun e => U e.1 k
  have ho : Orthonormal 𝕜 w := by
    rw [orthonormal_iff_ite]
    intro a b
    rw [PiLp.inner_apply]
    have : ∑ i : configs left, inner 𝕜 ((w a).ofLp i) ((w b).ofLp i) = ∑ e ∈ configs left, star (U e a) * U e b := by
      rw [← sum_coe_sort (configs left)]
      refine sum_congr rfl fun i _ => ?_
      rw [RCLike.inner_apply, mul_comm]
      rfl
    rw [this, hU a b a.2 b.2]
    simp [Fin.ext_iff]
  have := ho.linearIndependent.fintype_card_le_finrank
  simpa using this

/-- Dividing by the norm. -/
theorem unitSumB_div [AddCommGroup G] [DecidableEq G] {d : BT G 𝕜} {b : Dim G} (hs : d.shape = neutralised [b]) (hr : d.rule = 0)
    (hc : Conserving d.shape d.rule d.blocks) (c : ℝ) (h0 : 0 < c)
    (h1 : ∑ k ∈ range (dimSize b), entry d.shape d.blocks [k] ^ 2 = ((c ^ 2 : ℝ) : 𝕜)) :
    ∃ d', unitSumB d = .ok d' ∧ d'.shape = d.shape ∧ d'.rule = 0 ∧ Conserving d'.shape d'.rule d'.blocks ∧
      ∀ e, entry d'.shape d'.blocks e = entry d.shape d.blocks e / (c : 𝕜) := by
  obtain ⟨q1, q2, _⟩ := C64_sum_partial (mapBlocks (· ^ 2) d) (conserving_mapBlocks _ hc)
  have hsz : (mapBlocks (fun x : 𝕜 => x ^ 2) d).shape.map dimSize = [dimSize b] := by
    show d.shape.map dimSize = _
    rw [hs]; simp [neutralised, dimSize, Function.comp_def]
  rw [hsz, sum_indices1] at q2
  have hval : ∑ x ∈ range (dimSize b), entry (mapBlocks (fun x : 𝕜 => x ^ 2) d).shape (mapBlocks (fun x : 𝕜 => x ^ 2) d).blocks [x]
      = ((c ^ 2 : ℝ) : 𝕜) := by
    rw [← h1]
    exact sum_congr rfl fun k _ => entry_mapBlocks _ (by simp) d [k]
  rw [hval] at q2
  obtain ⟨g, g1, g2⟩ : ∃ g : List Nat → 𝕜, BT.sum (mapBlocks (· ^ 2) d) = sc g ∧ g [] = ((c ^ 2 : ℝ) : 𝕜) := by
    refine ⟨fun _ => ((mapBlocks (fun x : 𝕜 => x ^ 2) d).blocks.map fun kb => ((allIdx kb.2.dims).map kb.2.f).sum).sum, ?_, ?_⟩
    · unfold BT.sum sc
      simp only [BT.mk.injEq, true_and, and_true]
      exact hr
    · rw [← q2]
      simp only [BT.sum, entry, locateAll, lookup_cons, if_true]
  have := inPlace_sc (· / ·) hc.sorted (fun o => ((√(RCLike.re (g o)) : ℝ) : 𝕜))
  refine ⟨⟨d.shape, d.rule, numBlocks (fun x => x / ((√(RCLike.re (g [])) : ℝ) : 𝕜)) d.blocks⟩, ?_, rfl, hr, numBlocks_conserving (fun x => x / ((√(RCLike.re (g [])) : ℝ) : 𝕜)) hc, fun e => ?_⟩
  · unfold unitSumB
    rw [g1, sc_map]
    exact this
  · simp only
    rw [entry_num (by simp) hc, g2, RCLike.ofReal_re, Real.sqrt_sq h0.le]

theorem resized_neutral [AddCommGroup G] (keep : Nat → Option Nat) (b : Dim G) :
    resized keep (b.map fun s => (s.1, (0 : G))) = (resized keep b).map fun s => (s.1, (0 : G)) := by
  apply List.ext_getElem?
  intro i
  simp only [resized, List.getElem?_mapIdx, List.getElem?_map, Option.map_map]
  cases b[i]? <;> rfl


theorem card_configs (ds : List Nat) : (configs ds).card = ds.prod := by
  have h := sum_const_nat (s := configs ds) (m := 1) (f := fun _ => 1) (fun _ _ => rfl)
  rw [mul_one] at h
  rw [← h]
  clear h
  induction ds with
  | nil => rfl
  | cons d ds ih => rw [sum_configs_cons', sum_const, ih]; simp

theorem fuse_noEmpty [AddCommGroup G] {ds : Shape G} (h : NoEmpty ds) : ∀ s ∈ fuse ds, 0 < s.1 := by
  intro s hs
  unfold fuse at hs
  obtain ⟨j, hj, rfl⟩ := List.mem_map.1 hs
  have key : ∀ (ds : Shape G) (j : List Nat), NoEmpty ds → j ∈ indices (ds.map List.length) → ∃ x, sections ds j = some x ∧ 0 < (x.map Prod.fst).prod := by
    intro ds
    induction ds with
    | nil =>
      intro j _ hj
      have := mem_indices.1 hj
      cases this
      exact ⟨[], rfl, by simp⟩
    | cons d ds ih =>
      intro j h hj
      have hj := mem_indices.1 hj
      unfold InRange at hj
      obtain ⟨i, j', hi, hj', rfl⟩ := List.forall₂_cons_right_iff.1 hj
      obtain ⟨x, hx, hp⟩ := ih j' (fun d' hd' => h d' (by simp [hd'])) (mem_indices.2 hj')
      refine ⟨d[i] :: x, sections_cons.2 ⟨d[i], x, List.getElem?_eq_getElem hi, hx, rfl⟩, ?_⟩
      simp only [List.map_cons, List.prod_cons]
      exact Nat.mul_pos (h d (by simp) _ (List.getElem_mem hi)) hp
  obtain ⟨x, hx, hp⟩ := key ds j h hj
  rw [hx]
  exact hp

theorem svdSplit_noEmpty [AddCommGroup G] [LinearOrder G] {fac : Blk 𝕜 → Blk 𝕜 × Blk 𝕜 × Blk 𝕜}
    (t : BT G 𝕜) (ds1 ds2 : Shape G) (hs : t.shape = ds1 ++ ds2) (h1 : ds1 ≠ []) (h2 : ds2 ≠ []) (hc : Conserving t.shape t.rule t.blocks)
    (hz : ∀ d ∈ t.shape, 0 < dimSize d) (hne : NoEmpty t.shape) {u d v : BT G 𝕜} {b : Dim G} (h : svdSplit fac t ds1.length = .ok (u, d, v))
    (hd : d.shape = neutralised [b]) : ∀ s ∈ b, 0 < s.1 := by
  have hpop : Populated t.shape := fun d hd => by
    rintro rfl
    exact absurd (hz _ hd) (by simp [dimSize])
  have hz1 : ∀ d ∈ ds1, 0 < dimSize d := fun d hd => hz d (by rw [hs]; simp [hd])
  have hz2 : ∀ d ∈ ds2, 0 < dimSize d := fun d hd => hz d (by rw [hs]; simp [hd])
  obtain ⟨r, r1, r2, r3, r4, _⟩ := C26_reshape_partial t hc hpop [ds1, ds2] (by simpa using hs) (by simp) (by simp [h1, h2])
  have hcuts : groupCuts [ds1, ds2] = [ds1.length] := by simp [groupCuts, List.range_succ]
  rw [hcuts] at r1
  have r2 : r.shape = [fuse ds1, fuse ds2] := r2
  have hzr : ∀ d ∈ r.shape, 0 < dimSize d := by
    rw [r2]
    simp [fuse_pos hz1, fuse_pos hz2]
  obtain ⟨gs, g1, g2, _⟩ := C41_compact r [] _ _ r2 r4
  obtain ⟨mu, md, mv, q1, _, ⟨q2, q3⟩, _⟩ := svdFull_eq fac r [] _ _ r2 r4 hzr gs g1 g2
  have hd' : d = ⟨neutralised ([] ++ [bond (fuse ds2) gs]), 0, md⟩ := by
    unfold svdSplit at h
    simp only [r1, q1, bind, Except.bind] at h
    repeat' split at h
    all_goals first | exact ((Prod.mk.inj (Prod.mk.inj (Except.ok.inj h)).2).1).symm | cases h
  subst hd'
  have hb : b.map Prod.fst = (bond (fuse ds2) gs).map Prod.fst := by
    have := congrArg (List.map Prod.fst) (List.head_eq_of_cons_eq hd)
    simpa [Function.comp_def] using this.symm
  intro s hs'
  have : s.1 ∈ (bond (fuse ds2) gs).map Prod.fst := by rw [← hb]; exact List.mem_map_of_mem hs'
  unfold bond at this
  rw [List.map_map] at this
  obtain ⟨g, hg, he⟩ := List.mem_map.1 this
  obtain ⟨secs, nr, nc, p, q, hC, _⟩ := g2 g hg
  obtain ⟨e1, e2⟩ := matRows_eq hC.dims
  rw [← he]
  show 0 < min (matCols g) (matRows g)
  rw [e1, e2]
  have pos : ∀ (dd : Dim G) (n : Nat) (sp : List (Nat × Nat × Nat)), (∀ s ∈ dd, 0 < s.1) → Tiles dd n sp → sp ≠ [] → 0 < n := by
    intro dd n sp hp hT hn
    obtain ⟨x, hx⟩ := List.exists_mem_of_ne_nil _ hn
    obtain ⟨y, y1, y2, y3⟩ := hT.size x hx
    have := hp y (List.mem_of_getElem? y1)
    omega
  exact lt_min (pos _ _ _ (fuse_noEmpty fun d hd => hne d (by rw [hs]; simp [hd])) hC.colTiles hC.nonempty.2)
    (pos _ _ _ (fuse_noEmpty fun d hd => hne d (by rw [hs]; simp [hd])) hC.rowTiles hC.nonempty.1)

theorem isolated_of_none {β : Type} {bad : β → Bool} : ∀ {l : List β}, (∀ x ∈ l, bad x = false) → Isolated bad l
  | [], _ => trivial
  | x :: r, h => ⟨fun hx => (by rw [h x (by simp)] at hx; exact absurd hx (by simp)), isolated_of_none fun y hy => h y (by simp [hy])⟩

/-- Truncated SVD of a block tensor. -/
theorem svdCutB_columns [AddCommGroup G] [LinearOrder G] {fac : Blk 𝕜 → Blk 𝕜 × Blk 𝕜 × Blk 𝕜} (hfac : DenseSvd fac) (t : BT G 𝕜) (ds1 ds2 : Shape G)
    (hs : t.shape = ds1 ++ ds2) (h1 : ds1 ≠ []) (h2 : ds2 ≠ []) (hc : Conserving t.shape t.rule t.blocks) (hz : ∀ d ∈ t.shape, 0 < dimSize d)
    (hnz : ∃ e1 e2, InRange e1 (ds1.map dimSize) ∧ InRange e2 (ds2.map dimSize) ∧ entry t.shape t.blocks (e1 ++ e2) ≠ 0)
    (hsm : (ds1.map dimSize).prod < 2 ^ 63) (eps cutoff : ℝ) (hcut : 0 ≤ cutoff) (minB maxB : Nat) (hmin : 1 ≤ minB)
    (htidy : Tidy fac eps cutoff minB maxB t ds1.length) :
    ∃ (u v u' v' : BT G 𝕜) (d' : BT G ℝ) (b b' : Dim G) (σ : Nat → ℝ) (lst : List ℝ) (K0 : Nat) (live : Nat → Prop) (old : Nat → Nat),
      svdCutB fac eps t ds1.length cutoff minB maxB (fun x => x ^ 2) = .ok (u', ofRealB d', v') ∧
      (u'.shape = ds1 ++ [b'] ∧ u'.rule = t.rule ∧ Conserving u'.shape u'.rule u'.blocks) ∧
      (d'.shape = neutralised [b'] ∧ d'.rule = 0 ∧ Conserving d'.shape d'.rule d'.blocks) ∧
      (v'.shape = ds2.map flipped ++ [b'] ∧ v'.rule = 0 ∧ Conserving v'.shape v'.rule v'.blocks) ∧
      (b' ≠ [] ∧ b'.length ≤ (ds1.map List.length).prod ∧ b'.length ≤ (ds2.map List.length).prod ∧ (NoEmpty t.shape → ∀ s ∈ b', 0 < s.1)) ∧
      (∀ k, k < dimSize b → 0 ≤ σ k) ∧
      (∀ e1 e2, e1 ∈ configs (ds1.map dimSize) → e2 ∈ configs (ds2.map dimSize) →
        entry t.shape t.blocks (e1 ++ e2) = ∑ k ∈ range (dimSize b),
          entry u.shape u.blocks (e1 ++ [k]) * (σ k : 𝕜) * star (entry v.shape v.blocks (e2 ++ [k]))) ∧
      (∀ k k', k < dimSize b → k' < dimSize b →
        (∑ e ∈ configs (ds1.map dimSize), star (entry u.shape u.blocks (e ++ [k])) * entry u.shape u.blocks (e ++ [k']) =
          if k = k' then 1 else 0) ∧
        (∑ e ∈ configs (ds2.map dimSize), star (entry v.shape v.blocks (e ++ [k])) * entry v.shape v.blocks (e ++ [k']) =
          if k = k' then 1 else 0)) ∧
      (lst.Perm ((List.range (dimSize b)).map σ) ∧ lst.Pairwise (· ≥ ·) ∧ 1 ≤ K0 ∧ K0 ≤ lst.length ∧ min minB lst.length ≤ K0 ∧ K0 ≤ max minB maxB ∧
        (K0 < maxB → weight (fun x => x ^ 2) (lst.drop K0) ≤ cutoff ^ 2) ∧
        (∀ j < K0, minB ≤ j → cutoff ^ 2 < weight (fun x => x ^ 2) (lst.drop j))) ∧
      DM.DeadBond (lst.getD (K0 - 1) 0 - 2 * lst.getD (K0 - 1) 0 * eps) (fun e k => entry u.shape u.blocks (e ++ [k]))
        (fun e k => entry u'.shape u'.blocks (e ++ [k])) (fun e k => entry v.shape v.blocks (e ++ [k]))
        (fun e k => entry v'.shape v'.blocks (e ++ [k])) σ (fun k => entry d'.shape d'.blocks [k]) (ds1.map dimSize) (ds2.map dimSize)
        (dimSize b) (dimSize b') live old ∧
      (NoneEmptied fac eps cutoff minB maxB t ds1.length → ∀ k, k < dimSize b' → live k) := by
  obtain ⟨x1, x2, hx1, hx2, hx⟩ := hnz
  have hb : t.blocks ≠ [] := by
    intro h
    apply hx
    rw [h]
    unfold entry
    cases locateAll t.shape (x1 ++ x2) <;> rfl
  obtain ⟨u, d, v, b, e1, ⟨u1, u2, u3⟩, ⟨d1, d2, d3⟩, ⟨v1, v2, v3⟩, ⟨b1, b2, b3⟩, hp, ho, -⟩ :=
    C79_split_partial fac hfac.sizes hfac.product hfac.ortho t ds1 ds2 hs h1 h2 hc hz hb
  obtain ⟨hfull, hval⟩ := svdSplit_values hfac t ds1 ds2 hs h1 h2 hc hz e1 d1
  -- the values as real numbers
  set D : BT G ℝ := mapBlocks RCLike.re d with hD
  let b0 : Dim G := b.map fun s => (s.1, 0)
  have hDs : D.shape = [b0] := d1
  have hDc : Conserving D.shape D.rule D.blocks := conserving_mapBlocks _ d3
  have hDb : ∀ kb ∈ D.blocks, ∃ σ : Nat → ℝ, Antitone σ ∧ (∀ i, 0 ≤ σ i) ∧ ∀ i, i < kb.2.dims.getD 0 0 → kb.2.f [i] = σ i := by
    intro kb hkb
    obtain ⟨⟨k, blk⟩, hm, rfl⟩ := List.mem_map.1 hkb
    obtain ⟨σ, s1, s2, s3⟩ := hval k blk hm
    refine ⟨σ, s1, s2, fun i hi => ?_⟩
    show RCLike.re (blk.f [i]) = _
    rw [s3 i hi, RCLike.ofReal_re]
  have hdesc : Descending D.blocks := by
    intro kb hkb i j hij hj
    obtain ⟨σ, s1, s2, s3⟩ := hDb kb hkb
    rw [s3 i (by omega), s3 j hj]
    exact s1 hij
  have hDfull : ∀ j, j < b0.length → lookup D.blocks [j] ≠ none := by
    intro j hj
    have : lookup D.blocks [j] = (lookup d.blocks [j]).map fun b => ⟨b.dims, fun o => RCLike.re (b.f o)⟩ :=
      FM.lookup_map_snd (fun b : Blk 𝕜 => (⟨b.dims, fun o => RCLike.re (b.f o)⟩ : Blk ℝ)) d.blocks [j]
    rw [this]
    simpa using hfull j (by simpa [b0] using hj)
  have hsize : dimSize b0 = dimSize b := by simp [b0, dimSize, Function.comp_def]
  have hloc : ∀ k, k < dimSize b → ∃ x : ℝ, 0 ≤ x ∧ entry d.shape d.blocks [k] = (x : 𝕜) := by
    intro k hk
    obtain ⟨⟨n, ko⟩, hl⟩ := locate_isSome.2 (show k < dimSize b0 by omega)
    have he := entry_single (lead := []) (e := []) d.blocks rfl hl
    simp only [List.nil_append] at he
    rw [show d.shape = [b0] from d1, he]
    unfold blkAt
    cases hlk : lookup d.blocks [n] with
    | none => exact ⟨0, le_rfl, by simp⟩
    | some blk =>
      obtain ⟨σ, s1, s2, s3⟩ := hval _ _ (mem_of_lookup hlk)
      refine ⟨σ ko, s2 _, s3 ko ?_⟩
      obtain ⟨secs, q1, _, q3⟩ := d3.block _ _ (mem_of_lookup hlk)
      rw [show d.shape = [b0] from d1] at q1
      obtain ⟨s', r, q4, q5, rfl⟩ := sections_cons.1 q1
      cases q5
      obtain ⟨s, w1, w2, _⟩ := locate_iff.1 hl
      rw [w1] at q4
      cases q4
      rw [q3]
      exact w2
  have hre : ∀ k, entry D.shape D.blocks [k] = RCLike.re (entry d.shape d.blocks [k]) := fun k => entry_mapBlocks _ (by simp) d [k]
  have hσ0 : ∀ k, k < dimSize b → 0 ≤ entry D.shape D.blocks [k] := by
    intro k hk
    obtain ⟨x, p1, p2⟩ := hloc k hk
    rw [hre, p2, RCLike.ofReal_re]
    exact p1
  have hσ : ∀ k, k < dimSize b → entry d.shape d.blocks [k] = ((entry D.shape D.blocks [k] : ℝ) : 𝕜) := by
    intro k hk
    obtain ⟨x, p1, p2⟩ := hloc k hk
    rw [hre, p2, RCLike.ofReal_re]
  have hpos : 0 < dimSize b := by
    rcases Nat.eq_zero_or_pos (dimSize b) with h | h
    · rw [hp x1 x2 hx1 hx2, h] at hx
      simp at hx
    · exact h
  have hle : dimSize b ≤ (ds1.map dimSize).prod := by
    rw [← card_configs]
    exact columns_le (U := fun e k => entry u.shape u.blocks (e ++ [k])) fun a b ha hb => (ho a b ha hb).1
  have hvp := vectorValues_perm hDs hDc hDfull
  rw [hsize] at hvp
  have hvl : (vectorValues D.blocks).length = dimSize b := by rw [hvp.length_eq]; simp
  obtain ⟨lst, K0, l1, l2, l3, l4, l5, l6, l7, l8, l9⟩ := keepAbove_eq D (by
      rw [← List.length_pos_iff, hvl]; exact hpos) (by rw [hvl]; omega) cutoff hcut (fun x => x ^ 2) (fun x _ => sq_nonneg x) eps maxB minB hmin
  set thr := lst.getD (K0 - 1) 0 - 2 * lst.getD (K0 - 1) 0 * eps with hthr
  have hfst : b.map Prod.fst = b0.map Prod.fst := by simp [b0, Function.comp_def]
  obtain ⟨d', us', f1, ⟨f2, f3, f4, f5, f6⟩, -, f8⟩ := factors_core D [u, v] b0 hDs hDc hdesc (by
    intro w hw
    simp only [List.mem_cons, List.not_mem_nil, or_false] at hw
    rcases hw with rfl | rfl
    · exact ⟨u3, ds1, b, u1, hfst⟩
    · exact ⟨v3, ds2.map flipped, b, v1, hfst⟩) maxB minB cutoff (fun x => x ^ 2) eps thr l5
  obtain ⟨tu, tv⟩ := htidy u d v thr e1 l5
  cases f8 with
  | cons hfu f8 =>
    cases f8 with
    | cons hfv f8 =>
      cases f8
      rename_i u' v'
      obtain ⟨cu, su, bu, -, iu⟩ := hfu ds1 b u1
      obtain ⟨cv, sv, bv, -, iv⟩ := hfv (ds2.map flipped) b v1
      obtain ⟨iu1, iu2⟩ := iu tu
      obtain ⟨iv1, iv2⟩ := iv tv
      have back : ∀ {w w' : BT G 𝕜}, (∀ k b', (k, b') ∈ w'.blocks → ∃ b, (k, b) ∈ w.blocks ∧ (emptiedIn D.blocks thr k → b' = b)) →
          ∀ k j b', (k ++ [j], b') ∈ w'.blocks → lookup w.blocks (k ++ [j]) ≠ none := by
        intro w w' h k j b' hm hn
        obtain ⟨b, hb, -⟩ := h _ _ hm
        exact lookup_eq_none.1 hn _ hb rfl
      obtain ⟨live, old, C, Cl⟩ := columns u1 v1 hDs hfst hfst u3 v3 hDc hdesc hDfull cu cv f5 su sv (Stored.of_conserving f4) (back bu) (back bv) f6 iu2 iv2
      have hb' : dimSize (resized (above D.blocks thr) b0) = dimSize (resized (above D.blocks thr) b) := by
        rw [resized_neutral]
        simp [dimSize, Function.comp_def]
      rw [hsize, hb'] at C
      rw [hb'] at Cl
      have hfl : (ds2.map flipped).map dimSize = ds2.map dimSize := by simp [Function.comp_def, dimSize_flipped]
      have hlen : (resized (above D.blocks thr) b).length = b.length := by simp [resized]
      have hpos' : (∀ s ∈ b, 0 < s.1) → ∀ s ∈ resized (above D.blocks thr) b, 0 < s.1 := by
        intro h s hs
        unfold resized at hs
        obtain ⟨i, hi, rfl⟩ := List.mem_mapIdx.1 hs
        have := h _ (List.getElem_mem hi)
        show 0 < newSize _ _
        unfold newSize
        split
        · omega
        · exact this
      refine ⟨u, v, u', v', d', b, resized (above D.blocks thr) b, fun k => entry D.shape D.blocks [k], lst, K0, live, old, ?_, ⟨cu.shape, cu.rule.trans u2, iu1⟩,
        ⟨by rw [f2, resized_neutral]; rfl, f3.trans d2, f4⟩, ⟨cv.shape, cv.rule.trans v2, iv1⟩,
        ⟨by rw [← List.length_pos_iff, hlen]; exact List.length_pos_iff.2 b1, by rw [hlen]; exact b2, by rw [hlen]; exact b3, fun hne => hpos' (svdSplit_noEmpty t ds1 ds2 hs h1 h2 hc hz hne e1 d1)⟩, hσ0, ?_, ho,
        ⟨l1.trans hvp, l2, l3, l4, l6, l7, l8, l9⟩, ?_, fun h => Cl (h u d v thr e1 l5)⟩
      · unfold svdCutB truncateSvd
        simp only [e1, bind, Except.bind]
        rw [← hD, f1]
      · intro y1 y2 hy1 hy2
        rw [hp y1 y2 (MP.mem_configs.1 hy1) (MP.mem_configs.1 hy2)]
        exact sum_congr rfl fun k hk => by rw [hσ k (mem_range.1 hk)]
      · exact ⟨C.into, C.inj, C.onto, C.dLive, C.dDead, fun k e hk hl he => C.uLive k e hk hl (MP.mem_configs.1 he),
          fun k e hk hl he => C.vLive k e hk hl (by rw [hfl]; exact MP.mem_configs.1 he),
          fun k e hk hl he => C.uDead k e hk hl (MP.mem_configs.1 he),
          fun k e hk hl he => C.vDead k e hk hl (by rw [hfl]; exact MP.mem_configs.1 he)⟩

/-- What the new sites of an update with truncation are, for the two-site tensor `θ`. -/
structure CutSites (A B θ φ : Blk 𝕜) (fwd : Bool) (eps cutoff : ℝ) (minB maxB : Nat) (n i j n' k p K0 : Nat) (c : ℝ) : Prop where
  dimsA : A.dims = [n, i, k]
  dimsB : B.dims = [k, j, n']
  dims : φ.dims = [n, i, j, n']
  product : ∀ x y y' z, x < n → y < i → y' < j → z < n' → φ.f [x, y, y', z] = ∑ m ∈ range k, A.f [x, y, m] * B.f [m, y', z]
  norm : ‖DM.toV [n, i, j, n'] φ‖ = 1
  overlap : inner 𝕜 (DM.toV [n, i, j, n'] φ) (DM.toV [n, i, j, n'] θ) = (c : 𝕜)
  pos : 0 < c
  le : c ≤ 1
  left : fwd = true → LeftSemi A
  right : fwd = false → RightSemi B
  same : ∀ x, x < k → (ZeroCol A x ↔ ZeroRow B x)
  zeroRow : ∀ x, x < n → (∀ y y' z, y < i → y' < j → z < n' → θ.f [x, y, y', z] = 0) → ZeroRow A x
  zeroCol : ∀ z, z < n' → (∀ x y y', x < n → y < i → y' < j → θ.f [x, y, y', z] = 0) → ZeroCol B z
  used : open Classical in p = ((range k).filter fun x => ¬ ZeroCol A x).card
  one : 1 ≤ p
  bound : p ≤ n * i ∧ p ≤ j * n'
  values : ∃ lst, DM.Schmidt θ n i j n' lst ∧ open Classical in p = (lst.filter fun x => decide ((1 - 2 * eps) * lst.getD (K0 - 1) 0 < x)).length
  limit : 1 ≤ K0 ∧ K0 ≤ max minB maxB
  exact : p < K0 → c = 1
  min : p < minB → c = 1
  small : p < maxB → 1 - c ^ 2 ≤ cutoff ^ 2
  others : ∀ (χ : Blk 𝕜) (k' : Nat) (x y : List Nat → Nat → 𝕜), ‖DM.toV [n, i, j, n'] χ‖ = 1 →
    (∀ o ∈ configs [n, i, j, n'], χ.f o = terms x y k' (o.take 2) (o.drop 2)) →
    (k' ≤ p → ‖inner 𝕜 (DM.toV [n, i, j, n'] χ) (DM.toV [n, i, j, n'] θ)‖ ^ 2 ≤ c ^ 2) ∧
    (minB ≤ k' → k' < K0 → ‖inner 𝕜 (DM.toV [n, i, j, n'] χ) (DM.toV [n, i, j, n'] θ)‖ ^ 2 < 1 - cutoff ^ 2)

open Classical in
/-- The sites made of a truncated decomposition. -/
theorem cut_sites {A B θ : Blk 𝕜} {n i j n' : Nat} (hn : ‖DM.toV [n, i, j, n'] θ‖ = 1)
    {U U' V V' : List Nat → Nat → 𝕜} {σ σ' : Nat → ℝ} {K K' : Nat} (hσ0 : ∀ k, k < K → 0 ≤ σ k)
    (hU : ∀ a b, a < K → b < K → ∑ e ∈ configs [n, i], star (U e a) * U e b = if a = b then 1 else 0)
    (hV : ∀ a b, a < K → b < K → ∑ e ∈ configs [j, n'], star (V e a) * V e b = if a = b then 1 else 0)
    (hA : ∀ e ∈ configs [n, i], ∀ f ∈ configs [j, n'], θ.f (e ++ f) = ∑ k ∈ range K, U e k * (σ k : 𝕜) * star (V f k))
    {eps : ℝ} (he1 : eps ≤ 1 / 2) {lst : List ℝ} (hp : lst.Perm ((List.range K).map σ)) (hso : lst.Pairwise (· ≥ ·))
    {K0 minB maxB : Nat} {cutoff : ℝ} (hK1 : 1 ≤ K0) (hKm : min minB lst.length ≤ K0) (hKM : K0 ≤ max minB maxB)
    {live : Nat → Prop} {old : Nat → Nat}
    (hD : DM.DeadBond (lst.getD (K0 - 1) 0 - 2 * lst.getD (K0 - 1) 0 * eps) U U' V V' σ σ' [n, i] [j, n'] K K' live old) {c : ℝ}
    (c0 : 0 < c) (c1 : c ≤ 1) (cn : ‖DM.toV [n, i, j, n'] (DM.cutTensor U' V' (fun k => σ' k / c) K' n i j n')‖ = 1)
    (co : inner 𝕜 (DM.toV [n, i, j, n'] (DM.cutTensor U' V' (fun k => σ' k / c) K' n i j n')) (DM.toV [n, i, j, n'] θ) = (c : 𝕜))
    (p1 : 1 ≤ ((range K').filter live).card) (pe : ((range K').filter live).card < K0 → c = 1)
    (ps : ((range K').filter live).card < maxB → 1 - c ^ 2 ≤ cutoff ^ 2)
    (po : ∀ (χ : Blk 𝕜) (k' : Nat) (x y : List Nat → Nat → 𝕜), ‖DM.toV [n, i, j, n'] χ‖ = 1 →
      (∀ o ∈ configs [n, i, j, n'], χ.f o = terms x y k' (o.take 2) (o.drop 2)) →
      (k' ≤ ((range K').filter live).card → ‖inner 𝕜 (DM.toV [n, i, j, n'] χ) (DM.toV [n, i, j, n'] θ)‖ ^ 2 ≤ c ^ 2) ∧
      (minB ≤ k' → k' < K0 → ‖inner 𝕜 (DM.toV [n, i, j, n'] χ) (DM.toV [n, i, j, n'] θ)‖ ^ 2 < 1 - cutoff ^ 2))
    (fwd : Bool) {α β : Nat → ℝ} (hS : DM.DeadSites A B U' V' σ' α β c n i j n' K' live)
    (hα : fwd = true → ∀ k, k < K' → α k = 1) (hβ : fwd = false → ∀ k, k < K' → β k = 1) :
    CutSites A B θ (DM.cutTensor U' V' (fun k => σ' k / c) K' n i j n') fwd eps cutoff minB maxB n i j n' K' ((range K').filter live).card K0 c := by
  have hlen : lst.length = K := by simpa using hp.length_eq
  have hthr : 0 ≤ lst.getD (K0 - 1) 0 - 2 * lst.getD (K0 - 1) 0 * eps := by
    have : 0 ≤ lst.getD (K0 - 1) 0 := by
      rw [List.getD_eq_getElem?_getD]
      cases h : lst[K0 - 1]? with
      | none => simp
      | some x =>
        obtain ⟨k, hk, rfl⟩ := List.mem_map.1 (hp.subset (List.mem_of_getElem? h))
        exact hσ0 k (List.mem_range.1 hk)
    nlinarith
  refine ⟨hS.dimsA, hS.dimsB, rfl, hS.product, cn, co, c0, c1, fun h => hS.leftSemi hD hU (hα h), fun h => hS.rightSemi hD hV (hβ h), ?_,
    fun x hx h => hS.zeroRow hD hthr hV hA x hx h, fun z hz h => hS.zeroCol hD hthr hU hA z hz h, ?_, p1, ?_, ⟨lst, DM.schmidt hn hσ0 hU hV hA hp hso, ?_⟩, ⟨hK1, hKM⟩, pe, ?_, ps, po⟩
  · intro x hx
    exact not_iff_not.1 ((hS.colA hD hU x hx).trans (hS.rowB hD hV x hx).symm)
  · congr 1
    refine Finset.filter_congr fun x hx => ?_
    exact (hS.colA hD hU x (mem_range.1 hx)).symm
  · have h1 : ((range K').filter live).card ≤ K := by
      rw [hD.count hp, ← hlen]
      exact List.length_filter_le _ _
    have h2 := columns_le hU
    have h3 := columns_le hV
    rw [card_configs] at h2 h3
    simp at h2 h3
    omega
  · rw [hD.count hp]
    congr 2
    funext x
    rw [show lst.getD (K0 - 1) 0 - 2 * lst.getD (K0 - 1) 0 * eps = (1 - 2 * eps) * lst.getD (K0 - 1) 0 by ring]
  · intro h
    by_cases h' : ((range K').filter live).card < K0
    · exact pe h'
    · have hle : lst.length ≤ ((range K').filter live).card := by
        rcases Nat.le_total minB lst.length with h3 | h3
        · rw [min_eq_left h3] at hKm; omega
        · rw [min_eq_right h3] at hKm; omega
      have := (po θ K (fun e k => U e k * (σ k : 𝕜)) (fun f k => star (V f k)) hn (by
        intro o ho
        have ho' := MP.mem_configs.1 ho
        unfold InRange at ho'
        obtain ⟨x, o1, hx, ho1, rfl⟩ := List.forall₂_cons_right_iff.1 ho'
        obtain ⟨y, o2, hy, ho2, rfl⟩ := List.forall₂_cons_right_iff.1 ho1
        obtain ⟨y', o3, hy', ho3, rfl⟩ := List.forall₂_cons_right_iff.1 ho2
        obtain ⟨z, o4, hz, ho4, rfl⟩ := List.forall₂_cons_right_iff.1 ho3
        cases ho4
        exact hA [x, y] (MP.mem_configs.2 (.cons hx (.cons hy .nil))) [y', z] (MP.mem_configs.2 (.cons hy' (.cons hz .nil))))).1 (by omega)
      rw [inner_self_eq_norm_sq_to_K, hn] at this
      simp only [map_one, one_pow, norm_one] at this
      nlinarith

end QuantiT.BN
