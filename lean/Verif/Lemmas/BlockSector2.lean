import Verif.Lemmas.BlockSector
/-
The new sites of the block DMRG with truncation, whatever the state.
-/
namespace QuantiT.BN
open Spec BT MP
variable {G 𝕜 : Type} [RCLike 𝕜]

theorem resized_pos {keep : Nat → Option Nat} {b : Dim G} (h : 0 < dimSize b) : 0 < dimSize (resized keep b) := by
  obtain ⟨s, hs, h0⟩ : ∃ s ∈ b, 0 < s.1 := by
    by_contra hcon
    have : dimSize b = 0 := by
      unfold dimSize
      rw [List.sum_eq_zero_iff]
      intro x hx
      obtain ⟨s, hs, rfl⟩ := List.mem_map.1 hx
      by_contra hne
      exact hcon ⟨s, hs, Nat.pos_of_ne_zero hne⟩
    omega
  obtain ⟨j, hj⟩ := List.mem_iff_getElem?.1 hs
  have hm : (newSize (keep j) s.1, s.2) ∈ resized keep b := by
    apply List.mem_of_getElem? (i := j)
    simp [resized, hj]
  have h1 : 0 < newSize (keep j) s.1 := by
    unfold newSize
    split
    · omega
    · exact h0
  have : newSize (keep j) s.1 ≤ dimSize (resized keep b) := List.le_sum_of_mem (List.mem_map.2 ⟨_, hm, rfl⟩)
  omega

/-- A threshold is found only among values. -/
theorem keepAbove_values {d : BT G ℝ} {maxS minS : Nat} {tol eps thr : ℝ} {pw : ℝ → ℝ} (h : keepAbove d maxS minS tol pw eps = .ok thr) :
    allValues d ≠ [] := by
  intro hv
  unfold keepAbove LA.computeLastIndex LA.Rows.col at h
  simp [hv, bind, Except.bind, Res.throw] at h

/-- The factors of the truncated SVD of a block tensor, if it returns: their blocks may be out of order only if the last block of a factor
without truncation is of a section of which no value is kept. -/
theorem svdCutB_stored [AddCommGroup G] [LinearOrder G] {fac : Blk 𝕜 → Blk 𝕜 × Blk 𝕜 × Blk 𝕜} (hfac : DenseSvd fac) (t : BT G 𝕜) (ds1 ds2 : Shape G)
    (hs : t.shape = ds1 ++ ds2) (h1 : ds1 ≠ []) (h2 : ds2 ≠ []) (hc : Conserving t.shape t.rule t.blocks) (hz : ∀ d ∈ t.shape, 0 < dimSize d)
    (eps cutoff : ℝ) (minB maxB : Nat) {u' d' v' : BT G 𝕜}
    (h : svdCutB fac eps t ds1.length cutoff minB maxB (fun x => x ^ 2) = .ok (u', d', v')) :
    ∃ b' : Dim G, (u'.shape = ds1 ++ [b'] ∧ u'.rule = t.rule ∧ Stored u'.shape u'.rule u'.blocks) ∧
      (d'.shape = neutralised [b'] ∧ d'.rule = 0 ∧ Conserving d'.shape d'.rule d'.blocks) ∧
      (v'.shape = ds2.map flipped ++ [b'] ∧ v'.rule = 0 ∧ Stored v'.shape v'.rule v'.blocks) ∧
      b' ≠ [] ∧ b'.length ≤ (ds1.map List.length).prod ∧ 0 < dimSize b' ∧
      (LastKept fac eps cutoff minB maxB t ds1.length → Sorted u'.blocks ∧ Sorted v'.blocks) := by
  have hb : t.blocks ≠ [] := by
    intro hb
    unfold svdCutB at h
    rw [C79_empty_fails fac hfac.sizes hfac.product hfac.ortho t ds1 ds2 hs h1 h2 hz hb] at h
    cases h
  obtain ⟨u, d, v, b, e1, ⟨u1, u2, u3⟩, ⟨d1, d2, d3⟩, ⟨v1, v2, v3⟩, ⟨b1, b2, b3⟩, hp, ho, -⟩ :=
    C79_split_partial fac hfac.sizes hfac.product hfac.ortho t ds1 ds2 hs h1 h2 hc hz hb
  obtain ⟨hfull, hval⟩ := svdSplit_values hfac t ds1 ds2 hs h1 h2 hc hz e1 d1
  set D : BT G ℝ := mapBlocks RCLike.re d with hD
  let b0 : Dim G := b.map fun s => (s.1, 0)
  have hDs : D.shape = [b0] := d1
  have hDc : Conserving D.shape D.rule D.blocks := conserving_mapBlocks _ d3
  have hdesc : Descending D.blocks := by
    intro kb hkb i j hij hj
    obtain ⟨⟨k, blk⟩, hm, rfl⟩ := List.mem_map.1 hkb
    obtain ⟨σ, s1, s2, s3⟩ := hval k blk hm
    have hj : j < blk.dims.getD 0 0 := hj
    show RCLike.re (blk.f [j]) ≤ RCLike.re (blk.f [i])
    rw [s3 i (by omega), s3 j hj, RCLike.ofReal_re, RCLike.ofReal_re]
    exact s1 hij
  have hsize : dimSize b0 = dimSize b := by simp [b0, dimSize, Function.comp_def]
  have hfst : b.map Prod.fst = b0.map Prod.fst := by simp [b0, Function.comp_def]
  unfold svdCutB truncateSvd at h
  simp only [e1, bind, Except.bind] at h
  rw [← hD] at h
  cases hk : keepAbove D maxB minB cutoff (fun x => x ^ 2) eps with
  | error e =>
    unfold truncateImpl at h
    rw [hk] at h
    cases h
  | ok thr =>
    have hpos : 0 < dimSize b := by
      have hv := keepAbove_values hk
      rw [← hsize]
      obtain ⟨x, hx⟩ := List.exists_mem_of_ne_nil _ hv
      obtain ⟨⟨k, blk⟩, hkb, hx⟩ := List.mem_flatMap.1 hx
      obtain ⟨secs, s1, _, s3⟩ := hDc.block _ _ hkb
      rw [hDs] at s1
      rcases k with _ | ⟨j, k⟩
      · simp [sections] at s1
      · obtain ⟨s, r, q1, q2, rfl⟩ := sections_cons.1 s1
        rcases k with _ | ⟨j', k⟩
        · simp [sections] at q2
          subst q2
          have h0 : 0 < s.1 := by
            rcases Nat.eq_zero_or_pos s.1 with h | h
            · simp [blkList, s3, h, allIdx] at hx
            · exact h
          have : s.1 ≤ dimSize b0 := List.le_sum_of_mem (List.mem_map.2 ⟨s, List.mem_of_getElem? q1, rfl⟩)
          omega
        · simp [sections] at q2
    obtain ⟨dd, us', f1, ⟨f2, f3, f4, f5, f6⟩, -, f8⟩ := factors_core D [u, v] b0 hDs hDc hdesc (by
      intro w hw
      simp only [List.mem_cons, List.not_mem_nil, or_false] at hw
      rcases hw with rfl | rfl
      · exact ⟨u3, ds1, b, u1, hfst⟩
      · exact ⟨v3, ds2.map flipped, b, v1, hfst⟩) maxB minB cutoff (fun x => x ^ 2) eps thr hk
    rw [f1] at h
    cases f8 with
    | cons hfu f8 =>
      cases f8 with
      | cons hfv f8 =>
        cases f8
        cases h
        obtain ⟨cu, iu, -, ku, -⟩ := hfu ds1 b u1
        obtain ⟨cv, iv, -, kv, -⟩ := hfv (ds2.map flipped) b v1
        have hlen : (resized (above D.blocks thr) b).length = b.length := by simp [resized]
        exact ⟨resized (above D.blocks thr) b, ⟨cu.shape, cu.rule.trans u2, iu⟩,
          ⟨by show dd.shape = _; rw [f2, resized_neutral]; rfl, f3.trans d2, conserving_mapBlocks _ f4⟩, ⟨cv.shape, cv.rule.trans v2, iv⟩,
          by rw [← List.length_pos_iff, hlen]; exact List.length_pos_iff.2 b1, by rw [hlen]; exact b2, resized_pos hpos,
          fun hk' => ⟨(ku (hk' u d v thr e1 hk).1).sorted, (kv (hk' u d v thr e1 hk).2).sorted⟩⟩

/-- Shapes of the factors of the truncated SVD of a block tensor, if it returns. -/
theorem svdCutB_shapes [AddCommGroup G] [LinearOrder G] {fac : Blk 𝕜 → Blk 𝕜 × Blk 𝕜 × Blk 𝕜} (hfac : DenseSvd fac) (t : BT G 𝕜) (ds1 ds2 : Shape G)
    (hs : t.shape = ds1 ++ ds2) (h1 : ds1 ≠ []) (h2 : ds2 ≠ []) (hc : Conserving t.shape t.rule t.blocks) (hz : ∀ d ∈ t.shape, 0 < dimSize d)
    (eps cutoff : ℝ) (minB maxB : Nat) (hord : Orderly fac eps cutoff minB maxB t ds1.length) {u' d' v' : BT G 𝕜}
    (h : svdCutB fac eps t ds1.length cutoff minB maxB (fun x => x ^ 2) = .ok (u', d', v')) :
    ∃ b' : Dim G, (u'.shape = ds1 ++ [b'] ∧ u'.rule = t.rule ∧ Conserving u'.shape u'.rule u'.blocks) ∧
      (d'.shape = neutralised [b'] ∧ d'.rule = 0 ∧ Conserving d'.shape d'.rule d'.blocks) ∧
      (v'.shape = ds2.map flipped ++ [b'] ∧ v'.rule = 0 ∧ Conserving v'.shape v'.rule v'.blocks) ∧
      b' ≠ [] ∧ b'.length ≤ (ds1.map List.length).prod ∧ 0 < dimSize b' := by
  obtain ⟨b', ⟨u1, u2, u3⟩, hd, ⟨v1, v2, v3⟩, p1, p2, p3, -⟩ := svdCutB_stored hfac t ds1 ds2 hs h1 h2 hc hz eps cutoff minB maxB h
  obtain ⟨tu, tv⟩ := hord u' d' v' h
  exact ⟨b', ⟨u1, u2, tu, u3.block⟩, hd, ⟨v1, v2, tv, v3.block⟩, p1, p2, p3⟩

/-- The factors are in order if the last block of neither is of a section of which no value is kept. -/
theorem LastKept.orderly [AddCommGroup G] [LinearOrder G] {fac : Blk 𝕜 → Blk 𝕜 × Blk 𝕜 × Blk 𝕜} (hfac : DenseSvd fac) {t : BT G 𝕜} {ds1 ds2 : Shape G}
    (hs : t.shape = ds1 ++ ds2) (h1 : ds1 ≠ []) (h2 : ds2 ≠ []) (hc : Conserving t.shape t.rule t.blocks) (hz : ∀ d ∈ t.shape, 0 < dimSize d)
    {eps cutoff : ℝ} {minB maxB : Nat} (hk : LastKept fac eps cutoff minB maxB t ds1.length) : Orderly fac eps cutoff minB maxB t ds1.length := by
  intro u' d' v' h
  obtain ⟨_, _, _, _, _, _, _, hf⟩ := svdCutB_stored hfac t ds1 ds2 hs h1 h2 hc hz eps cutoff minB maxB h
  exact hf hk

theorem isolated_last {β : Type} (bad : β → Bool) : ∀ (l : List β), Isolated bad l → ∀ x, l.getLast? = some x → bad x = false
  | [], _, x, h => by simp at h
  | [a], h, x, hx => by
    simp at hx
    subst hx
    by_contra hb
    obtain ⟨y, r', e, -⟩ := h.1 (by simpa using hb)
    cases e
  | a :: b :: l, h, x, hx => isolated_last bad (b :: l) h.2 x (by simpa [List.getLast?_cons] using hx)

theorem Tidy.lastKept [AddCommGroup G] [LinearOrder G] {fac : Blk 𝕜 → Blk 𝕜 × Blk 𝕜 × Blk 𝕜} {eps cutoff : ℝ} {minB maxB : Nat} {t : BT G 𝕜} {split : Nat}
    (h : Tidy fac eps cutoff minB maxB t split) : LastKept fac eps cutoff minB maxB t split := by
  intro u d v thr e1 hk
  obtain ⟨a, b⟩ := h u d v thr e1 hk
  exact ⟨isolated_last _ _ a, isolated_last _ _ b⟩

/-- Dividing by the norm keeps the shape. -/
theorem unitSumB_shape [AddCommGroup G] [DecidableEq G] {d : BT G 𝕜} (hr : d.rule = 0) (hc : Conserving d.shape d.rule d.blocks) :
    ∃ d', unitSumB d = .ok d' ∧ d'.shape = d.shape ∧ d'.rule = 0 ∧ Conserving d'.shape d'.rule d'.blocks := by
  obtain ⟨g, g1⟩ : ∃ g : List Nat → 𝕜, BT.sum (mapBlocks (· ^ 2) d) = sc g := by
    refine ⟨fun _ => ((mapBlocks (fun x : 𝕜 => x ^ 2) d).blocks.map fun kb => ((allIdx kb.2.dims).map kb.2.f).sum).sum, ?_⟩
    unfold BT.sum sc
    simp only [BT.mk.injEq, true_and, and_true]
    exact hr
  refine ⟨⟨d.shape, d.rule, numBlocks (fun x => x / ((√(RCLike.re (g [])) : ℝ) : 𝕜)) d.blocks⟩, ?_, rfl, hr,
    numBlocks_conserving (fun x => x / ((√(RCLike.re (g [])) : ℝ) : 𝕜)) hc⟩
  unfold unitSumB
  rw [g1, sc_map]
  exact inPlace_sc (· / ·) hc.sorted (fun o => ((√(RCLike.re (g o)) : ℝ) : 𝕜))

/-- Shapes and rules of the new sites of an update with truncation, if it returns. -/
theorem new_sitesB_shapes [AddCommGroup G] [LinearOrder G] {fac : Blk 𝕜 → Blk 𝕜 × Blk 𝕜 × Blk 𝕜} (hfac : DenseSvd fac)
    {t : BT G 𝕜} {l s t' r : Dim G} (hR : Sound t) (hs : t.shape = [l, s, t', r])
    (hz : ∀ d ∈ t.shape, 0 < dimSize d) (hsm : l.length * s.length < 2 ^ 63) (eps cutoff : ℝ) (minB maxB : Nat)
    (htidy : Orderly fac eps cutoff minB maxB t 2) (fwd : Bool) (e : BT G ℝ) {E : ℝ} {A' B' : BT G 𝕜}
    (h : (andNext (svdCutB fac eps t 2 cutoff minB maxB fun x => x ^ 2) fun f =>
        andNext (unitSumB f.2.1) fun d =>
        andNext (item e) fun E =>
        if fwd then
          andNext (mulInPlace f.2.2 d) fun vd =>
          andNext (permute (conj star vd) [2, 0, 1]) fun nx =>
          some (.ok (E, f.1, nx))
        else
          andNext (do reshapeAs false d (← unsqueezedShape d)) fun _ =>
          andNext (mulInPlace f.1 d) fun ud =>
          andNext (permute (conj star f.2.2) [2, 0, 1]) fun nx =>
          some (.ok (E, ud, nx))) = some (.ok (E, A', B'))) :
    ∃ b : Dim G, A'.shape = [l, s, b] ∧ B'.shape = [flipped b, t', r] ∧ Sound A' ∧ Sound B' ∧ A'.rule + B'.rule = t.rule ∧ 0 < dimSize b := by
  unfold andNext andThen at h
  cases hsvd : svdCutB fac eps t 2 cutoff minB maxB (fun x => x ^ 2) with
  | error g => rw [hsvd] at h; cases h
  | ok f =>
    obtain ⟨u', d', v'⟩ := f
    rw [hsvd] at h
    obtain ⟨b, ⟨u1, u2, u3⟩, ⟨d1, d2, d3⟩, ⟨v1, v2, v3⟩, b1, b2, b3⟩ := svdCutB_shapes hfac t [l, s] [t', r] hs (by simp) (by simp) hR.1 hz
      eps cutoff minB maxB htidy hsvd
    have u1 : u'.shape = [l, s, b] := u1
    have v1 : v'.shape = [flipped t', flipped r, b] := v1
    have lb : b.length < 2 ^ 63 := by
      simp at b2; omega
    have hso := hR.2
    rw [hs] at hso hz
    have pop : ∀ x : Dim G, 0 < dimSize x → x ≠ [] := by rintro x hx rfl; simp [dimSize] at hx
    have zl := hz l (by simp)
    have zs := hz s (by simp)
    have zt := hz t' (by simp)
    have zr := hz r (by simp)
    obtain ⟨dn, n1, n2, n3, n4⟩ := unitSumB_shape d2 d3
    have n2' : dn.shape = neutralised [b] := n2.trans d1
    have sleft : ∀ w : BT G 𝕜, w.shape = [l, s, b] → Conserving w.shape w.rule w.blocks → Sound w := by
      intro w hw hcw
      refine ⟨hcw, ?_⟩
      rw [hw]
      intro x hx
      simp at hx
      rcases hx with rfl | rfl | rfl
      · exact hso _ (by simp)
      · exact hso _ (by simp)
      · exact lb
    have popv : Populated [flipped t', flipped r] := by
      intro x hx
      simp at hx
      rcases hx with rfl | rfl
      · exact pop _ (by rw [dimSize_flipped]; exact zt)
      · exact pop _ (by rw [dimSize_flipped]; exact zr)
    have popu : Populated [l, s] := by
      intro x hx
      simp at hx
      rcases hx with rfl | rfl
      · exact pop _ zl
      · exact pop _ zs
    simp only [n1] at h
    cases hi : item e with
    | error g => rw [hi] at h; cases h
    | ok E0 =>
      rw [hi] at h
      simp only at h
      cases fwd with
      | true =>
        obtain ⟨vd, w0, w1, w2, w3, -⟩ := mul_last v' dn [flipped t', flipped r] b v1 n2' n3 v3 n4 popv b1
        have w0 : mulInPlace v' dn = .ok vd := (mul_last_in_place v' dn [flipped t', flipped r] b v1 n2' v3 n4 popv b1).trans w0
        have w1 : vd.shape = [flipped t', flipped r, b] := w1
        obtain ⟨q, q0, q1, q2, q3, -⟩ := site_of_right (hso t' (by simp)) (hso r (by simp)) lb vd w1 w3
        simp only [if_true, w0, q0] at h
        cases h
        exact ⟨b, u1, q1, sleft _ u1 u3, q3, by rw [q2, u2, w2, v2]; simp, b3⟩
      | false =>
        obtain ⟨ud, w0, w1, w2, w3, -⟩ := mul_last u' dn [l, s] b u1 n2' n3 u3 n4 popu b1
        have w0 : mulInPlace u' dn = .ok ud := (mul_last_in_place u' dn [l, s] b u1 n2' u3 n4 popu b1).trans w0
        have w1 : ud.shape = [l, s, b] := w1
        obtain ⟨q, q0, q1, q2, q3, -⟩ := site_of_right (hso t' (by simp)) (hso r (by simp)) lb v' v1 v3
        obtain ⟨rr, r1⟩ := unsqueezed_ok (d := dn) n2' n4 (by simpa using b1)
        simp only [Bool.false_eq_true, if_false, r1, w0, q0] at h
        cases h
        exact ⟨b, w1, q1, sleft _ w1 w3, q3, by rw [q2, w2, u2, v2]; simp, b3⟩

theorem settle_inv {α : Type} {f : Nat → Option (Res α)} {r : α} (h : settle f = .ok r) : ∃ N, ∀ fuel, N ≤ fuel → f fuel = some (.ok r) := by
  unfold settle at h
  split at h
  · rename_i hex
    obtain ⟨N, hN⟩ := hex.choose_spec
    rw [h] at hN
    exact ⟨N, hN⟩
  · cases h

end QuantiT.BN
