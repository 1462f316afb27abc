import Verif.Props.SvdSplit
/-
The bond made by the decomposition of a tensor without empty sections has no empty section.
-/
namespace QuantiT
namespace BN
open Spec BT MP Finset
variable {G R : Type}

theorem dimSize_pos_of {d : Dim G} (h1 : d ≠ []) (h2 : ∀ x ∈ d, 0 < x.1) : 0 < dimSize d := by
  obtain ⟨x, r, rfl⟩ := List.exists_cons_of_ne_nil h1
  have := h2 x (by simp)
  simp [dimSize]
  omega

theorem fuse_sections_pos [AddCommGroup G] {ds : Shape G} (h : ∀ d ∈ ds, ∀ s ∈ d, 0 < s.1) : ∀ s ∈ fuse ds, 0 < s.1 := by
  intro s hs
  unfold fuse at hs
  obtain ⟨j, hj, rfl⟩ := List.mem_map.1 hs
  have key : ∀ (ds : Shape G) (j : List Nat), (∀ d ∈ ds, ∀ s ∈ d, 0 < s.1) → j ∈ indices (ds.map List.length) → ∃ x, sections ds j = some x ∧ 0 < (x.map Prod.fst).prod := by
    intro ds
    induction ds with
    | nil =>
      intro j _ hj
      have := mem_indices.1 hj
      cases this
      exact ⟨[], rfl, by simp⟩
    | cons d ds ih =>
      intro j h hj
      have hj := mem_indices.1 hj
      unfold InRange at hj
      obtain ⟨i, j', hi, hj', rfl⟩ := List.forall₂_cons_right_iff.1 hj
      obtain ⟨x, hx, hp⟩ := ih j' (fun d' hd' => h d' (by simp [hd'])) (mem_indices.2 hj')
      refine ⟨d[i] :: x, sections_cons.2 ⟨d[i], x, List.getElem?_eq_getElem hi, hx, rfl⟩, ?_⟩
      simp only [List.map_cons, List.prod_cons]
      exact Nat.mul_pos (h d (by simp) _ (List.getElem_mem hi)) hp
  obtain ⟨x, hx, hp⟩ := key ds j h hj
  rw [hx]
  exact hp

theorem svdSplit_bond_pos [AddCommGroup G] [LinearOrder G] [Semiring R] {fac : Blk R → Blk R × Blk R × Blk R}
    (t : BT G R) (ds1 ds2 : Shape G) (hs : t.shape = ds1 ++ ds2) (h1 : ds1 ≠ []) (h2 : ds2 ≠ []) (hc : Conserving t.shape t.rule t.blocks)
    (hz : ∀ d ∈ t.shape, 0 < dimSize d) (hne : ∀ d ∈ t.shape, ∀ s ∈ d, 0 < s.1) {u d v : BT G R} {b : Dim G} (h : svdSplit fac t ds1.length = .ok (u, d, v))
    (hd : d.shape = neutralised [b]) : ∀ s ∈ b, 0 < s.1 := by
  have hpop : Populated t.shape := fun d hd => by
    rintro rfl
    exact absurd (hz _ hd) (by simp [dimSize])
  have hz1 : ∀ d ∈ ds1, 0 < dimSize d := fun d hd => hz d (by rw [hs]; simp [hd])
  have hz2 : ∀ d ∈ ds2, 0 < dimSize d := fun d hd => hz d (by rw [hs]; simp [hd])
  obtain ⟨r, r1, r2, r3, r4, _⟩ := C26_reshape_partial t hc hpop [ds1, ds2] (by simpa using hs) (by simp) (by simp [h1, h2])
  have hcuts : groupCuts [ds1, ds2] = [ds1.length] := by simp [groupCuts, List.range_succ]
  rw [hcuts] at r1
  have r2 : r.shape = [fuse ds1, fuse ds2] := r2
  have hzr : ∀ d ∈ r.shape, 0 < dimSize d := by
    rw [r2]
    simp [fuse_pos hz1, fuse_pos hz2]
  obtain ⟨gs, g1, g2, _⟩ := C41_compact r [] _ _ r2 r4
  obtain ⟨mu, md, mv, q1, _, ⟨q2, q3⟩, _⟩ := svdFull_eq fac r [] _ _ r2 r4 hzr gs g1 g2
  have hd' : d = ⟨neutralised ([] ++ [bond (fuse ds2) gs]), 0, md⟩ := by
    unfold svdSplit at h
    simp only [r1, q1, bind, Except.bind] at h
    repeat' split at h
    all_goals first | exact ((Prod.mk.inj (Prod.mk.inj (Except.ok.inj h)).2).1).symm | cases h
  subst hd'
  have hb : b.map Prod.fst = (bond (fuse ds2) gs).map Prod.fst := by
    have := congrArg (List.map Prod.fst) (List.head_eq_of_cons_eq hd)
    simpa [Function.comp_def] using this.symm
  intro s hs'
  have : s.1 ∈ (bond (fuse ds2) gs).map Prod.fst := by rw [← hb]; exact List.mem_map_of_mem hs'
  unfold bond at this
  rw [List.map_map] at this
  obtain ⟨g, hg, he⟩ := List.mem_map.1 this
  obtain ⟨secs, nr, nc, p, q, hC, _⟩ := g2 g hg
  obtain ⟨e1, e2⟩ := matRows_eq hC.dims
  rw [← he]
  show 0 < min (matCols g) (matRows g)
  rw [e1, e2]
  have pos : ∀ (dd : Dim G) (n : Nat) (sp : List (Nat × Nat × Nat)), (∀ s ∈ dd, 0 < s.1) → Tiles dd n sp → sp ≠ [] → 0 < n := by
    intro dd n sp hp hT hn
    obtain ⟨x, hx⟩ := List.exists_mem_of_ne_nil _ hn
    obtain ⟨y, y1, y2, y3⟩ := hT.size x hx
    have := hp y (List.mem_of_getElem? y1)
    omega
  exact lt_min (pos _ _ _ (fuse_sections_pos fun d hd => hne d (by rw [hs]; simp [hd])) hC.colTiles hC.nonempty.2)
    (pos _ _ _ (fuse_sections_pos fun d hd => hne d (by rw [hs]; simp [hd])) hC.rowTiles hC.nonempty.1)

end BN
end QuantiT
