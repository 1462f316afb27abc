import Verif.Props.EighEx
/-
Orthonormality of the factors of block tensors with further dimensions, C66 and C67.
-/
namespace QuantiT
namespace BT
open Spec Finset
variable {G R : Type}

/-- A factor at the elements `e` of the first dimensions: the columns of the matrices met there are orthonormal, all others are zero. -/
theorem factor_ortho_lead [Semiring R] [StarRing R] {gs : List (Mat R)} {m : List (List Nat × Blk R)} {F : Mat R → Blk R}
    {spans : Mat R → List Span} {lead : Shape G} {d r : Dim G} {N K : Mat R → Nat} {e o eo ld : List Nat}
    (hle : locateAll lead e = some (o, eo)) (hld : eo.length = ld.length)
    (hm : ∀ k b, lookup m k = some b ↔ ∃ n g, gs[n]? = some g ∧ ∃ s ∈ spans g, k = g.other ++ [s.1, n] ∧ b = rowsOf (F g) s.2)
    (ht : ∀ g ∈ gs, Tiles d (N g) (spans g)) (hdims : ∀ g ∈ gs, g.other = o → (F g).dims = ld ++ [N g, K g])
    (hK : ∀ n g, gs[n]? = some g → secSize r n = K g) (hlen : r.length = gs.length)
    (hun : ∀ (n n' : Nat) (g g' : Mat R) s s', gs[n]? = some g → gs[n']? = some g' → g.other = g'.other → s ∈ spans g → s' ∈ spans g' →
      s.1 = s'.1 → n = n')
    (horth : ∀ g ∈ gs, g.other = o → ∀ a b, a < K g → b < K g →
      ∑ x ∈ range (N g), star ((F g).f (eo ++ [x, a])) * (F g).f (eo ++ [x, b]) = if a = b then 1 else 0)
    (k : Nat) (n ko : Nat) (hlk : locate r k = some (n, ko)) :
    (∀ k', k' < dimSize r → k ≠ k' →
      ∑ x ∈ range (dimSize d), star (entry (lead ++ [d, r]) m (e ++ [x, k])) * entry (lead ++ [d, r]) m (e ++ [x, k']) = 0) ∧
    ((∃ g, gs[n]? = some g ∧ g.other = o) →
      ∑ x ∈ range (dimSize d), star (entry (lead ++ [d, r]) m (e ++ [x, k])) * entry (lead ++ [d, r]) m (e ++ [x, k]) = 1) ∧
    ((¬ ∃ g, gs[n]? = some g ∧ g.other = o) → ∀ x, x < dimSize d → entry (lead ++ [d, r]) m (e ++ [x, k]) = 0) := by
  have hn : n < gs.length := by
    obtain ⟨s, h1, _⟩ := locate_iff.1 hlk
    rw [← hlen]
    exact (List.getElem?_eq_some_iff.1 h1).1
  obtain ⟨g, hg⟩ : ∃ g, gs[n]? = some g := ⟨_, List.getElem?_eq_getElem hn⟩
  have hgm := List.mem_of_getElem? hg
  have hko : ko < K g := by
    obtain ⟨s, h1, h2, _⟩ := locate_iff.1 hlk
    rw [← hK n g hg]
    simpa [secSize, h1] using h2
  -- the columns of one matrix
  have hsame : ∀ k' ko', locate r k' = some (n, ko') → g.other = o →
      ∑ x ∈ range (dimSize d), star (entry (lead ++ [d, r]) m (e ++ [x, k])) * entry (lead ++ [d, r]) m (e ++ [x, k']) = if ko = ko' then 1 else 0 := by
    intro k' ko' hlk' hgo
    have hko' : ko' < K g := by
      obtain ⟨s, h1, h2, _⟩ := locate_iff.1 hlk'
      rw [← hK n g hg]
      simpa [secSize, h1] using h2
    rw [sum_dim' d _ (fun i xo => star (blkAt m (o ++ [i, n]) (eo ++ [xo, ko])) * blkAt m (o ++ [i, n]) (eo ++ [xo, ko'])) (by
      intro x i xo hx
      rw [entry_pair m hle hx hlk, entry_pair m hle hx hlk'])]
    rw [tiles_sum (ht g hgm) (fun x => star ((F g).f (eo ++ [x, ko])) * (F g).f (eo ++ [x, ko'])), horth g hgm hgo ko ko' hko hko']
    · intro s hs xo hxo
      obtain ⟨x, x1, x2, x3⟩ := (ht g hgm).size s hs
      have e3 := rowsOf_eq (hdims g hgm hgo) (s := s.2) (by omega) x3
      rw [(factor_entry hm o eo s.1 n xo ko).1 g s hg hgo hs rfl, (factor_entry hm o eo s.1 n xo ko').1 g s hg hgo hs rfl,
        e3.2 eo xo ko hld, e3.2 eo xo ko' hld]
    · intro i hi xo
      rw [(factor_entry hm o eo i n xo ko).2 (by
        intro g' s hg' _ hs
        rw [hg] at hg'
        cases hg'
        exact hi s hs), star_zero, zero_mul]
  refine ⟨fun k' hk' hne => ?_, ?_, ?_⟩
  · obtain ⟨⟨n', ko'⟩, hlk'⟩ := locate_isSome.2 hk'
    by_cases hgo : g.other = o ∧ n = n'
    · obtain ⟨hgo, rfl⟩ := hgo
      rw [hsame k' ko' hlk' hgo, if_neg]
      rintro rfl
      obtain ⟨_, _, _, h3⟩ := locate_iff.1 hlk
      obtain ⟨_, _, _, h3'⟩ := locate_iff.1 hlk'
      omega
    · rw [sum_dim' d _ (fun i xo => star (blkAt m (o ++ [i, n]) (eo ++ [xo, ko])) * blkAt m (o ++ [i, n']) (eo ++ [xo, ko'])) (by
        intro x i xo hx
        rw [entry_pair m hle hx hlk, entry_pair m hle hx hlk'])]
      refine Finset.sum_eq_zero fun i _ => Finset.sum_eq_zero fun xo _ => ?_
      by_cases hi : g.other = o ∧ ∃ s ∈ spans g, s.1 = i
      · obtain ⟨ho, s, s1, s2⟩ := hi
        rw [(factor_entry hm o eo i n' xo ko').2 (by
          intro g' s' hg' ho' hs' he
          exact hgo ⟨ho, hun n n' g g' s s' hg hg' (ho.trans ho'.symm) s1 hs' (s2.trans he.symm)⟩), mul_zero]
      · rw [(factor_entry hm o eo i n xo ko).2 (by
          intro g' s hg' ho hs he
          rw [hg] at hg'
          cases hg'
          exact hi ⟨ho, s, hs, he⟩), star_zero, zero_mul]
  · rintro ⟨g', hg', ho⟩
    rw [hg] at hg'
    cases hg'
    rw [hsame k ko hlk ho, if_pos rfl]
  · intro hno x hx
    obtain ⟨⟨i, xo⟩, hlx⟩ := locate_isSome.2 hx
    rw [entry_pair m hle hlx hlk]
    refine (factor_entry hm o eo i n xo ko).2 ?_
    intro g' s hg' ho
    exact absurd ⟨g', hg', ho⟩ hno

theorem values_zero [Zero R] {gs : List (Mat R)} {md : List (List Nat × Blk R)} {FD : Mat R → Blk R} {lead : Shape G} {r : Dim G} {e o eo : List Nat}
    (hle : locateAll lead e = some (o, eo)) (d2 : ∀ k b, lookup md k = some b ↔ ∃ n g, gs[n]? = some g ∧ k = g.other ++ [n] ∧ b = FD g)
    {k n ko : Nat} (hlk : locate r k = some (n, ko)) (hno : ¬ ∃ g, gs[n]? = some g ∧ g.other = o) : entry (lead ++ [r]) md (e ++ [k]) = 0 := by
  rw [entry_single md hle hlk]
  unfold blkAt
  cases h : lookup md (o ++ [n]) with
  | none => rfl
  | some b =>
    obtain ⟨n', g, hg, hk, _⟩ := (d2 _ _).1 h
    obtain ⟨rfl, h2⟩ := List.append_inj' hk rfl
    cases h2
    exact absurd ⟨g, hg, rfl⟩ hno

/-- **C66.**  For a tensor of any number of dimensions, at every choice `e` of elements of the first dimensions the columns of `u` over the
new bond are orthogonal to each other, and so are those of `v`; the columns number `k` of `u` and of `v` have norm one, or both are zero
together with the value number `k` at `e`. -/
theorem C66_orthonormal_batch [AddCommGroup G] [LinearOrder G] [Semiring R] [StarRing R] (fac : Blk R → Blk R × Blk R × Blk R)
    (hfac : SvdSizes fac) (horth : SvdOrtho fac) (t : BT G R) (lead : Shape G) (dr dc : Dim G) (hs : t.shape = lead ++ [dr, dc])
    (hc : Conserving t.shape t.rule t.blocks) (hz : ∀ d ∈ t.shape, 0 < dimSize d) :
    ∃ u d v r, svdFull fac t true = .ok (u, d, v) ∧ u.shape = lead ++ [dr, r] ∧ d.shape = neutralised (lead ++ [r]) ∧
      v.shape = neutralised lead ++ [flipped dc, r] ∧ ∀ e, InRange e (lead.map dimSize) →
        (∀ k k', k < dimSize r → k' < dimSize r → k ≠ k' →
          ∑ x ∈ range (dimSize dr), star (entry u.shape u.blocks (e ++ [x, k])) * entry u.shape u.blocks (e ++ [x, k']) = 0 ∧
          ∑ y ∈ range (dimSize dc), star (entry v.shape v.blocks (e ++ [y, k])) * entry v.shape v.blocks (e ++ [y, k']) = 0) ∧
        ∀ k, k < dimSize r →
          (∑ x ∈ range (dimSize dr), star (entry u.shape u.blocks (e ++ [x, k])) * entry u.shape u.blocks (e ++ [x, k]) = 1 ∧
            ∑ y ∈ range (dimSize dc), star (entry v.shape v.blocks (e ++ [y, k])) * entry v.shape v.blocks (e ++ [y, k]) = 1) ∨
          (∀ x, x < dimSize dr → entry u.shape u.blocks (e ++ [x, k]) = 0) ∧ (∀ y, y < dimSize dc → entry v.shape v.blocks (e ++ [y, k]) = 0) ∧
            entry d.shape d.blocks (e ++ [k]) = 0 := by
  obtain ⟨gs, g1, g2, g3, g4⟩ := C41_compact t lead dr dc hs hc
  obtain ⟨mu, md, mv, h1, ⟨u1, u2⟩, ⟨d1, d2⟩, v1, v2⟩ := svdFull_eq fac t lead dr dc hs hc hz gs g1 g2
  have hK : ∀ (n : Nat) (g : Mat R), gs[n]? = some g → secSize (bond dc gs) n = min (matRows g) (matCols g) := by
    intro n g h
    simp [secSize, bond, h, Nat.min_comm]
  refine ⟨_, _, _, bond dc gs, h1, rfl, rfl, rfl, fun e he => ?_⟩
  obtain ⟨⟨o, eo⟩, hle⟩ := locateAll_isSome.2 he
  obtain ⟨secs0, hsec0, heo⟩ := locateAll_sections hle
  have hone : ∀ g ∈ gs, Tiles dr (matRows g) g.rows ∧ Tiles dc (matCols g) g.cols ∧
      (g.other = o → g.m.dims = secs0.map Prod.fst ++ [matRows g, matCols g]) := by
    intro g hg
    obtain ⟨secs, nr, nc, p, q, hC, _⟩ := g2 g hg
    obtain ⟨m1, m2⟩ := matRows_eq hC.dims
    refine ⟨by rw [m1]; exact hC.rowTiles, by rw [m2]; exact hC.colTiles, fun ho => ?_⟩
    have := hC.leads
    rw [ho, hsec0] at this
    cases this
    rw [m1, m2]
    exact hC.dims
  have hd : ∀ k, entry (neutralised (lead ++ [bond dc gs])) md (e ++ [k]) = entry (lead ++ [bond dc gs]) md (e ++ [k]) := by
    intro k
    unfold entry
    rw [locateAll_neutral]
  have hv : ∀ y k, entry (neutralised lead ++ [flipped dc, bond dc gs]) mv (e ++ [y, k]) = entry (lead ++ [dc, bond dc gs]) mv (e ++ [y, k]) := by
    intro y k
    unfold entry
    have h1 : locateAll (neutralised lead ++ [flipped dc, bond dc gs]) (e ++ [y, k]) =
        locateAll (neutralised (lead ++ [flipped dc, bond dc gs])) (e ++ [y, k]) := by
      rw [← locateAll_neutral, neutralised_append, neutralised_append]
      congr 2
      simp [neutralised, Function.comp_def]
    have h2 : neutralised (lead ++ [flipped dc, bond dc gs]) = neutralised (lead ++ [dc, bond dc gs]) := by
      simp [neutralised, flipped, Function.comp_def]
    rw [h1, h2, locateAll_neutral]
  have key : ∀ k n ko, locate (bond dc gs) k = some (n, ko) → _ ∧ _ := fun k n ko hlk =>
    ⟨factor_ortho_lead (N := matRows) (K := fun g => min (matRows g) (matCols g)) hle (inRange_length heo) u2 (fun g hg => (hone g hg).1)
      (fun g hg ho => (hfac g.m _ _ _ ((hone g hg).2.2 ho)).1) hK (by simp [bond])
      (fun n n' g g' s s' hg hg' ho h3 h4 h5 => matrix_unique g3 hg hg' ho (.inl ⟨s, h3, s', h4, h5⟩))
      (fun g hg ho a b ha hb => (horth g.m _ _ _ ((hone g hg).2.2 ho) eo a b heo ha hb).1) k n ko hlk,
    factor_ortho_lead (N := matCols) (K := fun g => min (matRows g) (matCols g)) hle (inRange_length heo) v2 (fun g hg => (hone g hg).2.1)
      (fun g hg ho => (hfac g.m _ _ _ ((hone g hg).2.2 ho)).2.2) hK (by simp [bond])
      (fun n n' g g' s s' hg hg' ho h3 h4 h5 => matrix_unique g3 hg hg' ho (.inr ⟨s, h3, s', h4, h5⟩))
      (fun g hg ho a b ha hb => (horth g.m _ _ _ ((hone g hg).2.2 ho) eo a b heo ha hb).2) k n ko hlk⟩
  simp only [hd, hv]
  constructor
  · intro k k' hk hk' hne
    obtain ⟨⟨n, ko⟩, hlk⟩ := locate_isSome.2 hk
    obtain ⟨⟨a1, _⟩, b1, _⟩ := key k n ko hlk
    exact ⟨a1 k' hk' hne, b1 k' hk' hne⟩
  · intro k hk
    obtain ⟨⟨n, ko⟩, hlk⟩ := locate_isSome.2 hk
    obtain ⟨⟨_, a2, a3⟩, _, b2, b3⟩ := key k n ko hlk
    by_cases h : ∃ g, gs[n]? = some g ∧ g.other = o
    · exact .inl ⟨a2 h, b2 h⟩
    · exact .inr ⟨a3 h, b3 h, values_zero hle d2 hlk h⟩

/-- **C67** (partial: as `C67_product_partial`).  For a tensor of any number of dimensions, at every choice `e` of elements of the first
dimensions the eigenvectors are orthogonal to each other; the one number `k` has norm one, or is zero together with its value at `e`. -/
theorem C67_orthonormal_batch_partial [AddCommGroup G] [LinearOrder G] [Semiring R] [StarRing R] (fac : Blk R → Blk R × Blk R)
    (hfac : EighSizes fac) (horth : EighOrtho fac) (t : BT G R) (lead : Shape G) (dr dc : Dim G) (hs : t.shape = lead ++ [dr, dc])
    (hc : Conserving t.shape t.rule t.blocks) (hz : ∀ d ∈ t.shape, 0 < dimSize d)
    (n0 : Nat) (c0 : G) (h0 : dc[0]? = some (n0, c0)) (hrule : chargeAt dc 0 + c0 = 0)
    (hst : ∀ k, Allowed t.shape t.rule k → lookup t.blocks k ≠ none) (hlen : dr.length = dc.length)
    (hdiag : ∀ o secs, sections lead o = some secs → ∀ (i : Nat) (x y : Nat × G), dr[i]? = some x → dc[i]? = some y →
      x.1 = y.1 ∧ charge secs + x.2 + y.2 = t.rule)
    (hherm : ∀ e x y, InRange e (lead.map dimSize) → x < dimSize dr → y < dimSize dr →
      entry t.shape t.blocks (e ++ [x, y]) = star (entry t.shape t.blocks (e ++ [y, x]))) :
    ∃ d u r, eighFull fac t = .ok (d, u) ∧ u.shape = lead ++ [dr, r] ∧ d.shape = neutralised (lead ++ [r]) ∧
      ∀ e, InRange e (lead.map dimSize) →
        (∀ k k', k < dimSize r → k' < dimSize r → k ≠ k' →
          ∑ x ∈ range (dimSize dr), star (entry u.shape u.blocks (e ++ [x, k])) * entry u.shape u.blocks (e ++ [x, k']) = 0) ∧
        ∀ k, k < dimSize r →
          ∑ x ∈ range (dimSize dr), star (entry u.shape u.blocks (e ++ [x, k])) * entry u.shape u.blocks (e ++ [x, k]) = 1 ∨
          (∀ x, x < dimSize dr → entry u.shape u.blocks (e ++ [x, k]) = 0) ∧ entry d.shape d.blocks (e ++ [k]) = 0 := by
  obtain ⟨gs, g1, g2, g3, g4⟩ := C41_compact t lead dr dc hs hc
  obtain ⟨mu, md, h1, ⟨u1, u2⟩, d1, d2⟩ := eighFull_eq fac t lead dr dc hs hz gs g1 g2 n0 c0 h0 (.inr hrule)
  refine ⟨_, _, bondE dc gs, h1, rfl, rfl, fun e he => ?_⟩
  obtain ⟨⟨o, eo⟩, hle⟩ := locateAll_isSome.2 he
  obtain ⟨secs0, hsec0, heo⟩ := locateAll_sections hle
  have hloc := locate_same hlen fun i x y h1 h2 => (hdiag o secs0 hsec0 i x y h1 h2).1
  have hone : ∀ g ∈ gs, Tiles dr (matCols g) g.rows ∧ (g.other = o → g.m.dims = secs0.map Prod.fst ++ [matCols g, matCols g] ∧
      HermitianBlk g.m (secs0.map Prod.fst) (matCols g)) := by
    intro g hg
    obtain ⟨secs, nr, nc, p, q, hC, hch⟩ := g2 g hg
    obtain ⟨m1, m2⟩ := matRows_eq hC.dims
    obtain ⟨e1, e2⟩ := square_spans hs hst hlen hdiag hC hch
    have hH := hermitian_mat hs hloc hherm hC e1 e2
    refine ⟨by rw [m2, ← e2]; exact hC.rowTiles, fun ho => ?_⟩
    have := hC.leads
    rw [ho, hsec0] at this
    cases this
    rw [m2, ← e2]
    exact ⟨by rw [hC.dims, ← e2], hH⟩
  have hd : ∀ k, entry (neutralised (lead ++ [bondE dc gs])) md (e ++ [k]) = entry (lead ++ [bondE dc gs]) md (e ++ [k]) := by
    intro k
    unfold entry
    rw [locateAll_neutral]
  have key := fun k n ko (hlk : locate (bondE dc gs) k = some (n, ko)) =>
    factor_ortho_lead (N := matCols) (K := matCols) hle (inRange_length heo) u2 (fun g hg => (hone g hg).1)
      (fun g hg ho => (hfac g.m _ _ ((hone g hg).2 ho).1).2) (fun n g h => by simp [secSize, bondE, h]) (by simp [bondE])
      (fun n n' g g' s s' hg hg' ho h3 h4 h5 => matrix_unique g3 hg hg' ho (.inl ⟨s, h3, s', h4, h5⟩))
      (fun g hg ho a b ha hb => horth g.m _ _ ((hone g hg).2 ho).1 ((hone g hg).2 ho).2 eo a b heo ha hb) k n ko hlk
  simp only [hd]
  constructor
  · intro k k' hk hk' hne
    obtain ⟨⟨n, ko⟩, hlk⟩ := locate_isSome.2 hk
    exact (key k n ko hlk).1 k' hk' hne
  · intro k hk
    obtain ⟨⟨n, ko⟩, hlk⟩ := locate_isSome.2 hk
    obtain ⟨_, a2, a3⟩ := key k n ko hlk
    by_cases h : ∃ g, gs[n]? = some g ∧ g.other = o
    · exact .inl (a2 h)
    · exact .inr ⟨a3 h, values_zero hle d2 hlk h⟩

/-! ### Non-vacuity -/

/-- Three dimensions: two sections in the first, a two by two matrix for each of its three elements. -/
def exBatch (R : Type) [NatCast R] : BT ℤ R :=
  ⟨[[(1, 0), (2, 0)], [(2, 0)], [(2, 0)]], 0, [([0, 0, 0], ⟨[1, 2, 2], fun o => (o.sum : Nat)⟩), ([1, 0, 0], ⟨[2, 2, 2], fun _ => (3 : Nat)⟩)]⟩

theorem exBatch_conserving (R : Type) [NatCast R] : Conserving (exBatch R).shape (exBatch R).rule (exBatch R).blocks := by
  refine ⟨List.pairwise_cons.2 ⟨by
    intro b hb
    simp only [List.mem_singleton] at hb
    subst hb
    show ([0, 0, 0] : List Nat) < [1, 0, 0]
    decide, List.pairwise_singleton _ _⟩, ?_⟩
  intro k b h
  simp only [exBatch, List.mem_cons, Prod.mk.injEq, List.not_mem_nil, or_false] at h
  rcases h with ⟨rfl, rfl⟩ | ⟨rfl, rfl⟩
  · exact ⟨[(1, 0), (2, 0), (2, 0)], rfl, rfl, rfl⟩
  · exact ⟨[(2, 0), (2, 0), (2, 0)], rfl, rfl, rfl⟩

/-- The hypotheses of `C66_orthonormal_batch` are met. -/
example : ∃ u d v, ∃ r : Dim ℤ, svdFull exOrtho (exBatch ℤ) true = .ok (u, d, v) ∧ ∀ k k', k < dimSize r → k' < dimSize r → k ≠ k' →
    ∑ x ∈ range 2, star (entry u.shape u.blocks [2, x, k]) * entry u.shape u.blocks [2, x, k'] = 0 := by
  obtain ⟨u, d, v, r, h, _, _, _, h1⟩ := C66_orthonormal_batch exOrtho exOrtho_sizes exOrtho_ortho (exBatch ℤ) [[(1, 0), (2, 0)]] _ _ rfl
    (exBatch_conserving ℤ) (by unfold exBatch; decide)
  exact ⟨u, d, v, r, h, fun k k' hk hk' hne => ((h1 [2] (.cons (by decide) .nil)).1 k k' hk hk' hne).1⟩

/-- The hypotheses of `C67_orthonormal_batch_partial` are met. -/
example : ∃ d u, ∃ r : Dim ℤ, eighFull exactEigh (exBatch ℝ) = .ok (d, u) ∧ ∀ k k', k < dimSize r → k' < dimSize r → k ≠ k' →
    ∑ x ∈ range 2, star (entry u.shape u.blocks [2, x, k]) * entry u.shape u.blocks [2, x, k'] = 0 := by
  obtain ⟨d, u, r, h, _, _, h1⟩ := C67_orthonormal_batch_partial exactEigh exactEigh_sizes exactEigh_ortho (exBatch ℝ) [[(1, 0), (2, 0)]] _ _ rfl
    (exBatch_conserving ℝ) (by unfold exBatch; decide) 2 0 rfl (by decide)
    (by
      rintro k ⟨secs, h1, h2⟩
      have hl := (sections_length h1).1
      match k, hl with
      | [a, i, j], _ =>
        obtain ⟨z, r, z1, z2, rfl⟩ := sections_cons.1 h1
        obtain ⟨x, r, x1, x2, rfl⟩ := sections_cons.1 z2
        obtain ⟨y, r, y1, y2, rfl⟩ := sections_cons.1 x2
        have ha := (List.getElem?_eq_some_iff.1 z1).1
        have hi := (List.getElem?_eq_some_iff.1 x1).1
        have hj := (List.getElem?_eq_some_iff.1 y1).1
        simp only [List.length_cons, List.length_nil] at ha hi hj
        have ha' : a = 0 ∨ a = 1 := by omega
        have hi' : i = 0 := by omega
        have hj' : j = 0 := by omega
        subst hi'
        subst hj'
        rcases ha' with rfl | rfl <;> simp [exBatch, lookup])
    rfl
    (by
      intro o secs ho i x y hx hy
      have hl := (sections_length ho).1
      match o, hl with
      | [a], _ =>
        obtain ⟨z, r, z1, z2, rfl⟩ := sections_cons.1 ho
        simp only [sections, Option.some.injEq] at z2
        subst z2
        have ha := (List.getElem?_eq_some_iff.1 z1).1
        have hi := (List.getElem?_eq_some_iff.1 hx).1
        simp only [List.length_cons, List.length_nil] at ha hi
        have ha' : a = 0 ∨ a = 1 := by omega
        have hi' : i = 0 := by omega
        subst hi'
        simp at hx hy
        subst hx
        subst hy
        rcases ha' with rfl | rfl <;> simp at z1 <;> subst z1 <;> simp [charge, exBatch])
    (by
      intro e x y he hx hy
      obtain ⟨a, b, ha, hb, rfl⟩ := List.forall₂_cons_right_iff.1 he
      cases hb
      have ha' : a = 0 ∨ a = 1 ∨ a = 2 := by simp [dimSize] at ha; omega
      have hx' : x = 0 ∨ x = 1 := by simp [dimSize] at hx; omega
      have hy' : y = 0 ∨ y = 1 := by simp [dimSize] at hy; omega
      rcases ha' with rfl | rfl | rfl <;> rcases hx' with rfl | rfl <;> rcases hy' with rfl | rfl <;>
        simp [entry, locateAll, locate, exBatch, lookup])
  exact ⟨d, u, r, h, fun k k' hk hk' hne => (h1 [2] (.cons (by decide) .nil)).1 k k' hk hk' hne⟩

end BT
end QuantiT
