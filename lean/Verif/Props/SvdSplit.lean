import Verif.Lemmas.SvdSplit
/-
C79: the decomposition of a block tensor between two groups of its dimensions.
-/
namespace QuantiT
namespace BT
open Spec Finset
variable {G R : Type}

/-- Everything known of the factors. -/
theorem split_all [AddCommGroup G] [LinearOrder G] [Semiring R] [StarRing R] (fac : Blk R → Blk R × Blk R × Blk R)
    (hfac : SvdSizes fac) (hprod : SvdProduct fac) (horth : SvdOrtho fac) (t : BT G R) (ds1 ds2 : Shape G)
    (hs : t.shape = ds1 ++ ds2) (h1 : ds1 ≠ []) (h2 : ds2 ≠ []) (hc : Conserving t.shape t.rule t.blocks)
    (hz : ∀ d ∈ t.shape, 0 < dimSize d) (hb : t.blocks ≠ []) :
    ∃ u d v b, svdSplit fac t ds1.length = .ok (u, d, v) ∧
      (u.shape = ds1 ++ [b] ∧ u.rule = t.rule ∧ Conserving u.shape u.rule u.blocks) ∧
      (d.shape = neutralised [b] ∧ d.rule = 0 ∧ Conserving d.shape d.rule d.blocks) ∧
      (v.shape = ds2.map flipped ++ [b] ∧ v.rule = 0 ∧ Conserving v.shape v.rule v.blocks) ∧
      (b ≠ [] ∧ b.length ≤ (ds1.map List.length).prod ∧ b.length ≤ (ds2.map List.length).prod) ∧
      (∀ e1 e2, InRange e1 (ds1.map dimSize) → InRange e2 (ds2.map dimSize) →
        entry t.shape t.blocks (e1 ++ e2) = ∑ k ∈ range (dimSize b),
          entry u.shape u.blocks (e1 ++ [k]) * entry d.shape d.blocks [k] * star (entry v.shape v.blocks (e2 ++ [k]))) ∧
      (∀ k k', k < dimSize b → k' < dimSize b →
        (∑ e ∈ configs (ds1.map dimSize), star (entry u.shape u.blocks (e ++ [k])) * entry u.shape u.blocks (e ++ [k']) =
          if k = k' then 1 else 0) ∧
        (∑ e ∈ configs (ds2.map dimSize), star (entry v.shape v.blocks (e ++ [k])) * entry v.shape v.blocks (e ++ [k']) =
          if k = k' then 1 else 0)) ∧
      (SvdReal fac → ∀ k, star (entry d.shape d.blocks [k]) = entry d.shape d.blocks [k]) ∧
      (b.map Prod.snd).Nodup := by
  have hpop : Populated t.shape := fun d hd => by
    rintro rfl
    exact absurd (hz _ hd) (by simp [dimSize])
  have hz1 : ∀ d ∈ ds1, 0 < dimSize d := fun d hd => hz d (by rw [hs]; simp [hd])
  have hz2 : ∀ d ∈ ds2, 0 < dimSize d := fun d hd => hz d (by rw [hs]; simp [hd])
  have hp1 : Populated ds1 := fun d hd => hpop d (by rw [hs]; simp [hd])
  have hp2 : Populated ds2 := fun d hd => hpop d (by rw [hs]; simp [hd])
  obtain ⟨r, r1, r2, r3, r4, r5⟩ := C26_reshape_partial t hc hpop [ds1, ds2] (by simpa using hs) (by simp) (by simp [h1, h2])
  have hcuts : groupCuts [ds1, ds2] = [ds1.length] := by simp [groupCuts, List.range_succ]
  rw [hcuts] at r1
  have hrb : r.blocks ≠ [] := by
    have := r1
    obtain ⟨q1, _⟩ := reshape_eq hc (gss := [ds1, ds2]) (by simpa using hs) (by simp) (by simp [h1, h2]) hpop
    rw [← groupCuts_eq, hcuts, r1] at q1
    simp only [Except.ok.injEq] at q1
    rw [q1]
    intro h0
    have := congrArg List.length h0
    simp [retile, sortKeys] at this
    exact hb this
  have r2 : r.shape = [fuse ds1, fuse ds2] := r2
  have hzr : ∀ d ∈ r.shape, 0 < dimSize d := by
    rw [r2]
    simp [fuse_pos hz1, fuse_pos hz2]
  obtain ⟨ru, d, rv, b, f1, ⟨u1, u2, u3⟩, hd, ⟨v1, v2, v3⟩, f5, f6, f7, f8, f9, _, f10, f11⟩ :=
    svdFull_all fac hfac hprod horth r _ _ r2 r4 hzr
  have hbne : b ≠ [] := f7 hrb
  -- the shapes
  have hlen : t.shape.length - ds1.length = ds2.length := by rw [hs]; simp
  have hsu : ∃ ρ, shapeFrom t (List.replicate ds1.length (-1) ++ List.replicate (t.shape.length - ds1.length) 0) = .ok ⟨ds1, ρ, []⟩ := by
    obtain ⟨p1, p2⟩ := picks_append (picks_replicate_neg ds1).1 (picks_replicate_zero hz2).1
    rw [(picks_replicate_neg ds1).2, (picks_replicate_zero hz2).2, List.append_nil] at p2
    rw [hlen]
    rw [C31_shape_from_partial t _ (by rw [hs]; exact p1) hpop, hs, p2]
    exact ⟨_, rfl⟩
  have hsv : ∃ ρ, shapeFrom t (List.replicate ds1.length 0 ++ List.replicate (t.shape.length - ds1.length) (-1)) = .ok ⟨ds2, ρ, []⟩ := by
    obtain ⟨p1, p2⟩ := picks_append (picks_replicate_zero hz1).1 (picks_replicate_neg ds2).1
    rw [(picks_replicate_neg ds2).2, (picks_replicate_zero hz1).2, List.nil_append] at p2
    rw [hlen]
    rw [C31_shape_from_partial t _ (by rw [hs]; exact p1) hpop, hs, p2]
    exact ⟨_, rfl⟩
  have hpick : ∀ x : BT G R, ∀ d0 : Dim G, x.shape = [d0, b] → 0 < dimSize d0 →
      ∃ ρ, shapeFrom x [0, -1] = .ok ⟨[b], ρ, []⟩ := by
    intro x d0 hx h0
    refine ⟨x.rule - fixedCharge x.shape [0, -1], (C31_shape_from_partial x _ ?_ ?_).trans ?_⟩
    · rw [hx]
      exact .cons (.inr ⟨le_refl _, by omega⟩) (.cons (.inl rfl) .nil)
    · rw [hx]
      intro d hd
      rcases List.mem_cons.1 hd with rfl | hd
      · rintro rfl; simp [dimSize] at h0
      · rw [List.mem_singleton.1 hd]; exact hbne
    · rw [hx]; rfl
  obtain ⟨ρu, hsu⟩ := hsu
  obtain ⟨ρv, hsv⟩ := hsv
  obtain ⟨ρu', hru⟩ := hpick ru _ u1 (fuse_pos hz1)
  obtain ⟨ρv', hrv⟩ := hpick rv _ v1 (by
    have := fuse_pos hz2
    simpa [flipped, dimSize, Function.comp_def] using this)
  have hlu : shapeFromList [(⟨ds1, ρu, []⟩ : BT G R), ⟨[b], ρu', []⟩] = .ok ⟨ds1 ++ [b], ρu + ρu', []⟩ := by
    rw [C32_shape_from_list _ (by simp)]
    simp
  have hlv : shapeFromList [inverseCvals (⟨ds2, ρv, []⟩ : BT G R), ⟨[b], ρv', []⟩] = .ok ⟨ds2.map flipped ++ [b], -ρv + ρv', []⟩ := by
    rw [C32_shape_from_list _ (by simp)]
    simp [inverseCvals]
    exact fun _ _ => rfl
  have hp2' : Populated (ds2.map flipped) := by
    intro d hd
    obtain ⟨x, hx, rfl⟩ := List.mem_map.1 hd
    intro h0
    exact hp2 x hx (by simpa [flipped] using h0)
  obtain ⟨u, hu1, hu2, hu3, hu4, hu5⟩ := unfuse_eq ru ⟨ds1 ++ [b], ρu + ρu', []⟩ ds1 b u1 rfl u3 hp1 hbne
  obtain ⟨v, hv1, hv2, hv3, hv4, hv5⟩ := unfuse_eq rv ⟨ds2.map flipped ++ [b], -ρv + ρv', []⟩ (ds2.map flipped) b
    (by rw [v1, fuse_flip]) rfl v3 hp2' hbne
  refine ⟨u, d, v, b, ?_, ⟨hu2, by rw [hu3, u2, r3], hu4⟩, hd, ⟨hv2, by rw [hv3, v2], hv4⟩, ⟨hbne, ?_, ?_⟩, ?_, ?_, f10, f11⟩
  · unfold svdSplit
    simp only [r1, f1, hsu, hru, hlu, hu1, hsv, hrv, hlv, hv1, bind, Except.bind]
  · rw [fuse_length] at f8; exact f8
  · rw [fuse_length] at f9; exact f9
  · intro e1 e2 he1 he2
    obtain ⟨x, x1, x2, _⟩ := (C26_fused_bijection ds1).1 e1 he1
    obtain ⟨y, y1, y2, _⟩ := (C26_fused_bijection ds2).1 e2 he2
    rw [← r5 (e1 ++ e2) [x, y] ⟨e1, e2, x, [y], rfl, rfl, x1, e2, [], y, [], by simp, rfl, y1, rfl, rfl⟩, f5 x y x2 y2]
    refine sum_congr rfl fun k hk => ?_
    rw [hu5 e1 x k x1 (mem_range.1 hk), hv5 e2 y k (fusedIndex_flip y1) (mem_range.1 hk)]
  · intro k k' hk hk'
    obtain ⟨o1, o2⟩ := f6 k k' hk hk'
    rw [sum_fuse ds1 _ (fun e => star (entry u.shape u.blocks (e ++ [k])) * entry u.shape u.blocks (e ++ [k']))
      fun e x hx _ => by rw [hu5 e x k hx hk, hu5 e x k' hx hk']] at o1
    rw [sum_fuse ds2 _ (fun e => star (entry v.shape v.blocks (e ++ [k])) * entry v.shape v.blocks (e ++ [k']))
      fun e x hx _ => by rw [hv5 e x k (fusedIndex_flip hx) hk, hv5 e x k' (fusedIndex_flip hx) hk']] at o2
    exact ⟨o1, o2⟩

/-- **C79.**  `svd(tensor, split)` of a tensor that stores a block and has no dimension of size zero: the first factor has
the leading dimensions and a bond, and the rule of the tensor; the second one the bond without charges; the third one the
trailing dimensions with opposite charges and the bond.  Their product is the tensor, and the first and the third factor
are isometries; the singular values are real if those of the dense decomposition are. -/
theorem C79_split_partial [AddCommGroup G] [LinearOrder G] [Semiring R] [StarRing R] (fac : Blk R → Blk R × Blk R × Blk R)
    (hfac : SvdSizes fac) (hprod : SvdProduct fac) (horth : SvdOrtho fac) (t : BT G R) (ds1 ds2 : Shape G)
    (hs : t.shape = ds1 ++ ds2) (h1 : ds1 ≠ []) (h2 : ds2 ≠ []) (hc : Conserving t.shape t.rule t.blocks)
    (hz : ∀ d ∈ t.shape, 0 < dimSize d) (hb : t.blocks ≠ []) :
    ∃ u d v b, svdSplit fac t ds1.length = .ok (u, d, v) ∧
      (u.shape = ds1 ++ [b] ∧ u.rule = t.rule ∧ Conserving u.shape u.rule u.blocks) ∧
      (d.shape = neutralised [b] ∧ d.rule = 0 ∧ Conserving d.shape d.rule d.blocks) ∧
      (v.shape = ds2.map flipped ++ [b] ∧ v.rule = 0 ∧ Conserving v.shape v.rule v.blocks) ∧
      (b ≠ [] ∧ b.length ≤ (ds1.map List.length).prod ∧ b.length ≤ (ds2.map List.length).prod) ∧
      (∀ e1 e2, InRange e1 (ds1.map dimSize) → InRange e2 (ds2.map dimSize) →
        entry t.shape t.blocks (e1 ++ e2) = ∑ k ∈ range (dimSize b),
          entry u.shape u.blocks (e1 ++ [k]) * entry d.shape d.blocks [k] * star (entry v.shape v.blocks (e2 ++ [k]))) ∧
      (∀ k k', k < dimSize b → k' < dimSize b →
        (∑ e ∈ configs (ds1.map dimSize), star (entry u.shape u.blocks (e ++ [k])) * entry u.shape u.blocks (e ++ [k']) =
          if k = k' then 1 else 0) ∧
        (∑ e ∈ configs (ds2.map dimSize), star (entry v.shape v.blocks (e ++ [k])) * entry v.shape v.blocks (e ++ [k']) =
          if k = k' then 1 else 0)) ∧
      (SvdReal fac → ∀ k, star (entry d.shape d.blocks [k]) = entry d.shape d.blocks [k]) := by
  obtain ⟨u, d, v, b, e, hu, hd, hv, hb', hp, ho, hr, -⟩ := split_all fac hfac hprod horth t ds1 ds2 hs h1 h2 hc hz hb
  exact ⟨u, d, v, b, e, hu, hd, hv, hb', hp, ho, hr⟩

/-- **C79.**  The sections of the bond have different charges: elements of the bond with the same charge are in one section. -/
theorem C79_charges [AddCommGroup G] [LinearOrder G] [Semiring R] [StarRing R] (fac : Blk R → Blk R × Blk R × Blk R)
    (hfac : SvdSizes fac) (hprod : SvdProduct fac) (horth : SvdOrtho fac) (t : BT G R) (ds1 ds2 : Shape G)
    (hs : t.shape = ds1 ++ ds2) (h1 : ds1 ≠ []) (h2 : ds2 ≠ []) (hc : Conserving t.shape t.rule t.blocks)
    (hz : ∀ d ∈ t.shape, 0 < dimSize d) (hb : t.blocks ≠ []) {u d v : BT G R} {b : Dim G}
    (h : svdSplit fac t ds1.length = .ok (u, d, v)) (hu : u.shape = ds1 ++ [b]) : (b.map Prod.snd).Nodup := by
  obtain ⟨u', d', v', b', e, ⟨hu', -⟩, -, -, -, -, -, -, hn⟩ := split_all fac hfac hprod horth t ds1 ds2 hs h1 h2 hc hz hb
  rw [h] at e
  cases e
  rw [hu] at hu'
  have := List.append_cancel_left hu'
  simp only [List.cons.injEq, and_true] at this
  rw [this]
  exact hn

/-- **C79 fails** for a tensor that stores no block: reading the charge of the bond, which has no section, is undefined
behaviour. -/
theorem C79_empty_fails [AddCommGroup G] [LinearOrder G] [Semiring R] [StarRing R] (fac : Blk R → Blk R × Blk R × Blk R)
    (hfac : SvdSizes fac) (hprod : SvdProduct fac) (horth : SvdOrtho fac) (t : BT G R) (ds1 ds2 : Shape G)
    (hs : t.shape = ds1 ++ ds2) (h1 : ds1 ≠ []) (h2 : ds2 ≠ []) (hz : ∀ d ∈ t.shape, 0 < dimSize d) (hb : t.blocks = []) :
    svdSplit fac t ds1.length = Res.ub := by
  have hpop : Populated t.shape := fun d hd => by
    rintro rfl
    exact absurd (hz _ hd) (by simp [dimSize])
  have hc : Conserving t.shape t.rule t.blocks := by
    rw [hb]
    exact ⟨by simp [Sorted], fun _ _ h => by cases h⟩
  have hz1 : ∀ d ∈ ds1, 0 < dimSize d := fun d hd => hz d (by rw [hs]; simp [hd])
  have hz2 : ∀ d ∈ ds2, 0 < dimSize d := fun d hd => hz d (by rw [hs]; simp [hd])
  obtain ⟨q1, q2⟩ := reshape_eq hc (gss := [ds1, ds2]) (by simpa using hs) (by simp) (by simp [h1, h2]) hpop
  have hcuts : groupCuts [ds1, ds2] = [ds1.length] := by simp [groupCuts, List.range_succ]
  rw [← groupCuts_eq, hcuts] at q1
  have hre : retile t.shape (([ds1, ds2] : List (Shape G)).map fuse) t.blocks = [] := by rw [hb]; rfl
  obtain ⟨ru, d, rv, b, f1, ⟨u1, _, _⟩, _, _, _, _, _, _, _, f10, _, _⟩ := svdFull_all fac hfac hprod horth
    ⟨([ds1, ds2] : List (Shape G)).map fuse, t.rule, retile t.shape (([ds1, ds2] : List (Shape G)).map fuse) t.blocks⟩ _ _ rfl q2
    (by simp [fuse_pos hz1, fuse_pos hz2])
  have hb0 := f10 hre
  subst hb0
  have hlen : t.shape.length - ds1.length = ds2.length := by rw [hs]; simp
  obtain ⟨p1, p2⟩ := picks_append (picks_replicate_neg ds1).1 (picks_replicate_zero hz2).1
  have hsu := C31_shape_from_partial t _ (by rw [hs]; exact p1) hpop
  have hru : shapeFrom ru [0, -1] = Res.ub := by
    obtain ⟨⟨b, o⟩, h3⟩ := locate_isSome.mpr (fuse_pos hz1)
    obtain ⟨s, h4, _, _⟩ := locate_iff.mp h3
    have hp : Picks [fuse ds1, []] [0, -1] := .cons (.inr ⟨le_refl _, by have := fuse_pos hz1; omega⟩) (.cons (.inl rfl) .nil)
    rw [shapeFrom, if_neg (by simp [u1]), if_neg (by rw [u1, sizes_check hp]; simp)]
    have : shapeFromRule ru.shape [0, -1] ru.rule = Res.ub := by
      rw [u1]
      simp [shapeFromRule, decompose1_eq h3, h4]
    simp only [this, bind, Except.bind, Res.ub]
  unfold svdSplit
  simp only [q1, f1, hlen, hsu, hru, bind, Except.bind, Res.ub]

end BT
end QuantiT
