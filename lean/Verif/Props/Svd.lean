import Verif.Lemmas.Svd
import Mathlib.Algebra.BigOperators.Intervals
import Mathlib.Algebra.BigOperators.Ring.Finset
/-
Singular value decomposition of block tensors, C42 and C66.
-/
namespace QuantiT
namespace BT
open Spec Finset
variable {G R : Type}

theorem rowsOf_eq {b : Blk R} {ld : List Nat} {nr k : Nat} (hb : b.dims = ld ++ [nr, k]) {s : Nat × Nat} (h1 : s.1 ≤ s.2) (h2 : s.2 ≤ nr) :
    (rowsOf b s).dims = ld ++ [s.2 - s.1, k] ∧
      ∀ e r c, e.length = ld.length → (rowsOf b s).f (e ++ [r, c]) = b.f (e ++ [s.1 + r, c]) := by
  have hsl : (b.dims.map fun n => ((0 : Nat), n)).set (b.dims.length - 2) s = (ld.map fun n => (0, n)) ++ [s, (0, k)] := by
    rw [hb]
    simp [List.set_append]
  unfold rowsOf indexSlices
  simp only [hsl]
  refine ⟨?_, ?_⟩
  · rw [hb, List.zipWith_append (by simp)]
    congr 1
    · induction ld with
      | nil => rfl
      | cons n ld ih => simp [List.zipWith_map_right]
    · simp [Nat.min_eq_left h2, Nat.min_eq_left (le_trans h1 h2)]
  · intro e r c he
    congr 1
    rw [List.zipWith_append (by simp [he])]
    congr 1
    · rw [List.zipWith_map_right]
      clear hsl hb
      induction e generalizing ld with
      | nil => rfl
      | cons x e ih =>
        cases ld with
        | nil => simp at he
        | cons n ld =>
          have := ih (ld := ld) (by simpa using he)
          simp only [Nat.zero_add] at this
          simp only [List.zipWith_cons_cons, Nat.zero_add, this]
    · simp

/-- **C42.**  For a conserving tensor with at least two dimensions, none of them of size zero, the reduced singular value
decomposition raises no exception; `u` has the rule of the tensor, `d` and `v` are neutral; all three are conserving tensors; and
their shapes are those of the factors: a new dimension `r` next to the first dimensions of the tensor in `u`, next to its inverted
last dimension in `v`.
Not covered: dimensions of size zero (`C42_empty_fails`) and the full decomposition (`C42_full_fails`). -/
theorem C42_svd_partial [AddCommGroup G] [LinearOrder G] [Zero R] (fac : Blk R → Blk R × Blk R × Blk R) (hfac : SvdSizes fac)
    (t : BT G R) (lead : Shape G) (dr dc : Dim G) (hs : t.shape = lead ++ [dr, dc]) (hc : Conserving t.shape t.rule t.blocks)
    (hz : ∀ d ∈ t.shape, 0 < dimSize d) :
    ∃ u d v r, svdFull fac t true = .ok (u, d, v) ∧
      (u.shape = lead ++ [dr, r] ∧ u.rule = t.rule ∧ Conserving u.shape u.rule u.blocks) ∧
      (d.shape = neutralised (lead ++ [r]) ∧ d.rule = 0 ∧ Conserving d.shape d.rule d.blocks) ∧
      (v.shape = neutralised lead ++ [flipped dc, r] ∧ v.rule = 0 ∧ Conserving v.shape v.rule v.blocks) := by
  obtain ⟨gs, g1, g2, _⟩ := C41_compact t lead dr dc hs hc
  obtain ⟨mu, md, mv, h1, ⟨u1, u2⟩, ⟨d1, d2⟩, v1, v2⟩ := svdFull_eq fac t lead dr dc hs hc hz gs g1 g2
  have hbond : ∀ {n : Nat} {g : Mat R} {secs nr nc p q}, gs[n]? = some g →
      Collected lead dr dc t.blocks g.m g.other g.rows g.cols secs nr nc p q → (bond dc gs)[n]? = some (min nr nc, q) := by
    intro n g secs nr nc p q h hC
    have := matRows_eq hC.dims
    simp [bond, h, this.1, this.2, (colCharge_eq (lead := lead) (dr := dr) hC.nonempty.2 hC.colCharge).2, Nat.min_comm]
  have hsec2 : ∀ {a b : Dim G} {i j x y}, a[i]? = some x → b[j]? = some y → sections [a, b] [i, j] = some [x, y] := by
    intro a b i j x y h1 h2
    exact sections_cons.2 ⟨x, [y], h1, sections_cons.2 ⟨y, [], h2, rfl, rfl⟩, rfl⟩
  refine ⟨_, _, _, bond dc gs, h1, ⟨rfl, rfl, u1, ?_⟩, ⟨rfl, rfl, d1, ?_⟩, rfl, rfl, v1, ?_⟩
  · intro k b hkb
    obtain ⟨n, g, hn, s, s1, rfl, rfl⟩ := (u2 k b).1 (lookup_of_mem u1 hkb)
    obtain ⟨secs, nr, nc, p, q, hC, hch⟩ := g2 g (List.mem_of_getElem? hn)
    obtain ⟨x, hx⟩ := hC.rowCharge s s1
    obtain ⟨x', hx', t1, t2⟩ := hC.rowTiles.size s s1
    rw [hx] at hx'; cases hx'
    refine ⟨_, sections_append hC.leads (hsec2 hx (hbond hn hC)), ?_, ?_⟩
    · rw [charge_append, ← hch]
      simp [charge, add_assoc]
    · rw [(rowsOf_eq (hfac _ _ _ _ hC.dims).1 (by omega) t2).1, t1]
      simp
  · intro k b hkb
    obtain ⟨n, g, hn, rfl, rfl⟩ := (d2 k b).1 (lookup_of_mem d1 hkb)
    obtain ⟨secs, nr, nc, p, q, hC, hch⟩ := g2 g (List.mem_of_getElem? hn)
    refine ⟨_, sections_mapCharge _ (sections_append hC.leads (sections_cons.2 ⟨_, [], hbond hn hC, rfl, rfl⟩)), charge_neutral _, ?_⟩
    rw [(hfac _ _ _ _ hC.dims).2.1]
    simp
  · intro k b hkb
    obtain ⟨n, g, hn, s, s1, rfl, rfl⟩ := (v2 k b).1 (lookup_of_mem v1 hkb)
    obtain ⟨secs, nr, nc, p, q, hC, hch⟩ := g2 g (List.mem_of_getElem? hn)
    obtain ⟨x, hx⟩ := hC.colCharge s s1
    obtain ⟨x', hx', t1, t2⟩ := hC.colTiles.size s s1
    rw [hx] at hx'; cases hx'
    have hx2 : (flipped dc)[s.1]? = some (x, -q) := by simp [flipped, hx]
    refine ⟨_, sections_append (sections_mapCharge _ hC.leads) (hsec2 hx2 (hbond hn hC)), ?_, ?_⟩
    · rw [charge_append, charge_neutral]
      simp [charge]
    · rw [(rowsOf_eq (hfac _ _ _ _ hC.dims).2.2 (by omega) t2).1, t1]
      simp

/-! ### Sums over a dimension -/

theorem sum_range_list {M : Type} [AddCommMonoid M] (n : Nat) (f : Nat → M) : ∑ k ∈ range n, f k = ((List.range n).map f).sum := by
  induction n with
  | zero => simp
  | succ n ih => rw [Finset.sum_range_succ, ih, List.range_succ]; simp

/-- A sum over the elements of a dimension is a sum over its sections and the offsets inside. -/
theorem sum_dim {M : Type} [AddCommMonoid M] (d : Dim G) (F : Option (Nat × Nat) → M) :
    ∑ k ∈ range (dimSize d), F (locate d k) = ∑ n ∈ range d.length, ∑ o ∈ range (secSize d n), F (some (n, o)) := by
  rw [sum_range_list, sum_range_list]
  have := congrArg (fun l => (l.map F).sum) (map_locate d)
  simp only [List.map_map, sum_flatMap] at this
  rw [show (fun k => F (locate d k)) = F ∘ locate d from rfl, this]
  congr 1

theorem sum_dim' {M : Type} [AddCommMonoid M] (d : Dim G) (f : Nat → M) (g : Nat → Nat → M)
    (h : ∀ k n ko, locate d k = some (n, ko) → f k = g n ko) :
    ∑ k ∈ range (dimSize d), f k = ∑ n ∈ range d.length, ∑ o ∈ range (secSize d n), g n o := by
  have := sum_dim d (fun p => (p.map fun p => g p.1 p.2).getD 0)
  simp only [Option.map_some, Option.getD_some] at this
  rw [← this]
  refine Finset.sum_congr rfl fun k hk => ?_
  obtain ⟨⟨n, ko⟩, hk'⟩ := locate_isSome.2 (Finset.mem_range.1 hk)
  rw [hk', h k n ko hk']
  rfl

/-- The entry of a block, zero if it is not stored. -/
def blkAt [Zero R] (bl : List (List Nat × Blk R)) (k o : List Nat) : R :=
  match lookup bl k with
  | none => 0
  | some b => b.f o

theorem entry_pair [Zero R] {lead : Shape G} {d1 d2 : Dim G} (bl : List (List Nat × Blk R)) {e o eo : List Nat} {x i xo k n ko : Nat}
    (he : locateAll lead e = some (o, eo)) (hx : locate d1 x = some (i, xo)) (hk : locate d2 k = some (n, ko)) :
    entry (lead ++ [d1, d2]) bl (e ++ [x, k]) = blkAt bl (o ++ [i, n]) (eo ++ [xo, ko]) := by
  unfold entry
  have h2 : locateAll [d1, d2] [x, k] = some ([i, n], [xo, ko]) :=
    locateAll_cons.2 ⟨i, xo, [n], [ko], hx, locateAll_cons.2 ⟨n, ko, [], [], hk, rfl, rfl⟩, rfl⟩
  rw [locateAll_append he h2]
  rfl

theorem entry_single [Zero R] {lead : Shape G} {d2 : Dim G} (bl : List (List Nat × Blk R)) {e o eo : List Nat} {k n ko : Nat}
    (he : locateAll lead e = some (o, eo)) (hk : locate d2 k = some (n, ko)) :
    entry (lead ++ [d2]) bl (e ++ [k]) = blkAt bl (o ++ [n]) (eo ++ [ko]) := by
  unfold entry
  have h2 : locateAll [d2] [k] = some ([n], [ko]) := locateAll_cons.2 ⟨n, ko, [], [], hk, rfl, rfl⟩
  rw [locateAll_append he h2]
  rfl

theorem neutralised_append [Zero G] (a b : Shape G) : neutralised (a ++ b) = neutralised a ++ neutralised b := by
  simp [neutralised]

theorem locateAll_neutral [AddCommGroup G] [DecidableEq G] (sh : Shape G) (e : List Nat) : locateAll (neutralised sh) e = locateAll sh e :=
  locateAll_mapCharge (fun s => (s.1, 0)) (fun _ => rfl) sh e

theorem locate_neutral [AddCommGroup G] [DecidableEq G] (d : Dim G) (e : Nat) : locate (d.map fun s => (s.1, (0 : G))) e = locate d e :=
  locate_mapCharge (fun s => (s.1, 0)) (fun _ => rfl) d e

/-- Two matrices with a common row, or a common column, are the same. -/
theorem matrix_unique {gs : List (Mat R)}
    (hd : gs.Pairwise fun g g' => g.other = g'.other →
        (∀ s ∈ g.rows, ∀ s' ∈ g'.rows, s.1 ≠ s'.1) ∧ ∀ s ∈ g.cols, ∀ s' ∈ g'.cols, s.1 ≠ s'.1)
    {n n' : Nat} {g g' : Mat R} (h : gs[n]? = some g) (h' : gs[n']? = some g') (ho : g.other = g'.other)
    (hrc : (∃ s ∈ g.rows, ∃ s' ∈ g'.rows, s.1 = s'.1) ∨ ∃ s ∈ g.cols, ∃ s' ∈ g'.cols, s.1 = s'.1) : n = n' := by
  obtain ⟨l1, e1⟩ := List.getElem?_eq_some_iff.1 h
  obtain ⟨l2, e2⟩ := List.getElem?_eq_some_iff.1 h'
  by_contra hne
  rcases Nat.lt_or_gt_of_ne hne with hlt | hlt
  · have := List.pairwise_iff_getElem.1 hd n n' l1 l2 hlt
    rw [e1, e2] at this
    obtain ⟨a1, a2⟩ := this ho
    rcases hrc with ⟨s, s1, s', s2, s3⟩ | ⟨s, s1, s', s2, s3⟩
    · exact a1 s s1 s' s2 s3
    · exact a2 s s1 s' s2 s3
  · have := List.pairwise_iff_getElem.1 hd n' n l2 l1 hlt
    rw [e1, e2] at this
    obtain ⟨a1, a2⟩ := this ho.symm
    rcases hrc with ⟨s, s1, s', s2, s3⟩ | ⟨s, s1, s', s2, s3⟩
    · exact a1 s' s2 s s1 s3.symm
    · exact a2 s' s2 s s1 s3.symm

/-- The blocks of a factor, entry by entry. -/
theorem factor_entry [Zero R] {gs : List (Mat R)} {m : List (List Nat × Blk R)} {F : Mat R → Blk R} {spans : Mat R → List Span}
    (hm : ∀ k b, lookup m k = some b ↔ ∃ n g, gs[n]? = some g ∧ ∃ s ∈ spans g, k = g.other ++ [s.1, n] ∧ b = rowsOf (F g) s.2)
    (o eo : List Nat) (i n xo ko : Nat) :
    (∀ g s, gs[n]? = some g → g.other = o → s ∈ spans g → s.1 = i → blkAt m (o ++ [i, n]) (eo ++ [xo, ko]) =
      (rowsOf (F g) s.2).f (eo ++ [xo, ko])) ∧
    ((∀ g s, gs[n]? = some g → g.other = o → s ∈ spans g → s.1 ≠ i) → blkAt m (o ++ [i, n]) (eo ++ [xo, ko]) = 0) := by
  constructor
  · rintro g s hg rfl hs rfl
    unfold blkAt
    rw [(hm _ _).2 ⟨n, g, hg, s, hs, rfl, rfl⟩]
  · intro h
    unfold blkAt
    rcases hl : lookup m (o ++ [i, n]) with _ | b
    · rfl
    · exfalso
      obtain ⟨n', g, hg, s, hs, hk, _⟩ := (hm _ _).1 hl
      obtain ⟨rfl, h2, rfl⟩ := last_inj hk
      exact h g s hg rfl hs h2.symm

theorem sub_lt_of_span {a b n x : Nat} (h1 : b = a + n) (h2 : x < n) : a ≤ a + x ∧ a + x < b ∧ a + x - a = x := by omega

/-- Factors made of the factors of the matrices multiply back to the tensor. -/
theorem factors_product [AddCommGroup G] [LinearOrder G] [Semiring R] [StarRing R] {t : BT G R} {lead : Shape G} {dr dc r : Dim G}
    (hs : t.shape = lead ++ [dr, dc]) {gs : List (Mat R)}
    (g2 : ∀ g ∈ gs, ∃ secs nr nc p q, Collected lead dr dc t.blocks g.m g.other g.rows g.cols secs nr nc p q)
    (g3 : gs.Pairwise fun g g' => g.other = g'.other →
        (∀ s ∈ g.rows, ∀ s' ∈ g'.rows, s.1 ≠ s'.1) ∧ ∀ s ∈ g.cols, ∀ s' ∈ g'.cols, s.1 ≠ s'.1)
    (g4 : ∀ k b, (k, b) ∈ t.blocks → ∃! i : Nat, ∃ g : Mat R, gs[i]? = some g ∧ Holds g.other g.rows g.cols k)
    {mu md mv : List (List Nat × Blk R)} {FU FD FV : Mat R → Blk R} {K : Mat R → Nat}
    (u2 : ∀ k b, lookup mu k = some b ↔ ∃ n g, gs[n]? = some g ∧ ∃ s ∈ g.rows, k = g.other ++ [s.1, n] ∧ b = rowsOf (FU g) s.2)
    (d2 : ∀ k b, lookup md k = some b ↔ ∃ n g, gs[n]? = some g ∧ k = g.other ++ [n] ∧ b = FD g)
    (v2 : ∀ k b, lookup mv k = some b ↔ ∃ n g, gs[n]? = some g ∧ ∃ s ∈ g.cols, k = g.other ++ [s.1, n] ∧ b = rowsOf (FV g) s.2)
    (hsize : ∀ (n : Nat) (g : Mat R), gs[n]? = some g → secSize r n = K g) (hlen : r.length = gs.length)
    (hdims : ∀ g ∈ gs, ∀ ld nr nc, g.m.dims = ld ++ [nr, nc] → (FU g).dims = ld ++ [nr, K g] ∧ (FV g).dims = ld ++ [nc, K g])
    (hprod : ∀ g ∈ gs, ∀ ld nr nc, g.m.dims = ld ++ [nr, nc] → ∀ e r c, InRange e ld → r < nr → c < nc →
      g.m.f (e ++ [r, c]) = ∑ k ∈ range (K g), (FU g).f (e ++ [r, k]) * (FD g).f (e ++ [k]) * star ((FV g).f (e ++ [c, k])))
    (e : List Nat) (x y : Nat) (he : InRange e (lead.map dimSize)) (hx : x < dimSize dr) (hy : y < dimSize dc) :
    entry t.shape t.blocks (e ++ [x, y]) = ∑ k ∈ range (dimSize r),
      entry (lead ++ [dr, r]) mu (e ++ [x, k]) * entry (lead ++ [r]) md (e ++ [k]) * star (entry (lead ++ [dc, r]) mv (e ++ [y, k])) := by
  obtain ⟨⟨o, eo⟩, hle⟩ := locateAll_isSome.2 he
  obtain ⟨⟨i, xo⟩, hlx⟩ := locate_isSome.2 hx
  obtain ⟨⟨j, yo⟩, hly⟩ := locate_isSome.2 hy
  rw [sum_dim' r _ (fun n ko =>
        blkAt mu (o ++ [i, n]) (eo ++ [xo, ko]) * blkAt md (o ++ [n]) (eo ++ [ko]) * star (blkAt mv (o ++ [j, n]) (eo ++ [yo, ko])))
    (fun k n ko hk' => by rw [entry_pair mu hle hlx hk', entry_single md hle hk', entry_pair mv hle hly hk'])]
  rw [hs, entry_pair t.blocks hle hlx hly]
  obtain ⟨sr, hsr, hxo, _⟩ := locate_iff.1 hlx
  obtain ⟨sc, hsc, hyo, _⟩ := locate_iff.1 hly
  by_cases hex : ∃ (n : Nat) (g : Mat R), gs[n]? = some g ∧ g.other = o ∧ (∃ s ∈ g.rows, s.1 = i) ∧ ∃ s ∈ g.cols, s.1 = j
  · obtain ⟨n, g, hn, ho, ⟨s, s1, s2⟩, s', s1', s2'⟩ := hex
    obtain ⟨secs, nr, nc, p, q, hC⟩ := g2 g (List.mem_of_getElem? hn)
    rw [Finset.sum_eq_single n]
    · rw [hsize n g hn]
      obtain ⟨x', a1, a2, a3⟩ := hC.rowTiles.size s s1
      obtain ⟨y', b1, b2, b3⟩ := hC.colTiles.size s' s1'
      rw [s2, hsr] at a1
      rw [s2', hsc] at b1
      cases a1; cases b1
      have heo : InRange eo (secs.map Prod.fst) := by
        have := hC.leads
        rw [ho] at this
        exact locateAll_offset hle this
      have hel := inRange_length heo
      obtain ⟨c1, c2, c3⟩ := sub_lt_of_span a2 hxo
      obtain ⟨c4, c5, c6⟩ := sub_lt_of_span b2 hyo
      have hp := hprod g (List.mem_of_getElem? hn) _ nr nc hC.dims eo (s.2.1 + xo) (s'.2.1 + yo) heo (by omega) (by omega)
      rw [hC.value eo heo s s1 s' s1' _ _ c1 c2 c4 c5, c3, c6, ho, s2, s2'] at hp
      unfold blkAt
      refine Eq.trans hp ?_
      refine Finset.sum_congr rfl fun ko _ => ?_
      have hu := (factor_entry u2 o eo i n xo ko).1 g s hn ho s1 s2
      have hv := (factor_entry v2 o eo j n yo ko).1 g s' hn ho s1' s2'
      unfold blkAt at hu hv
      rw [hu, hv, (rowsOf_eq (hdims g (List.mem_of_getElem? hn) _ _ _ hC.dims).1 (by omega) a3).2 _ _ _ hel,
        (rowsOf_eq (hdims g (List.mem_of_getElem? hn) _ _ _ hC.dims).2 (by omega) b3).2 _ _ _ hel, (d2 _ _).2 ⟨n, g, hn, by rw [ho], rfl⟩]
    · intro n' _ hne
      refine Finset.sum_eq_zero fun ko _ => ?_
      rw [(factor_entry u2 o eo i n' xo ko).2, zero_mul, zero_mul]
      intro g' s'' hn' ho' hs'' he'
      exact hne (matrix_unique g3 hn' hn (ho'.trans ho.symm) (Or.inl ⟨s'', hs'', s, s1, he'.trans s2.symm⟩))
    · intro hnot
      exfalso
      apply hnot
      rw [Finset.mem_range]
      rw [hlen]
      exact (List.getElem?_eq_some_iff.1 hn).1
  · have hL : blkAt t.blocks (o ++ [i, j]) (eo ++ [xo, yo]) = 0 := by
      unfold blkAt
      rcases hl : lookup t.blocks (o ++ [i, j]) with _ | b
      · rfl
      · exfalso
        obtain ⟨n, ⟨g, hn, s, s1, s', s1', hk⟩, _⟩ := g4 _ _ (mem_of_lookup hl)
        obtain ⟨ho, e1, e2⟩ := last_inj hk
        exact hex ⟨n, g, hn, ho.symm, ⟨s, s1, e1.symm⟩, s', s1', e2.symm⟩
    rw [hL]
    symm
    refine Finset.sum_eq_zero fun n _ => Finset.sum_eq_zero fun ko _ => ?_
    by_cases hr : ∃ g s, gs[n]? = some g ∧ g.other = o ∧ s ∈ g.rows ∧ s.1 = i
    · obtain ⟨g, s, hn, ho, s1, s2⟩ := hr
      rw [(factor_entry v2 o eo j n yo ko).2, star_zero, mul_zero]
      intro g' s' hn' ho' hs' he'
      rw [hn] at hn'
      cases hn'
      exact hex ⟨n, g, hn, ho, ⟨s, s1, s2⟩, s', hs', he'⟩
    · rw [(factor_entry u2 o eo i n xo ko).2, zero_mul, zero_mul]
      intro g' s' hn' ho' hs' he'
      exact hr ⟨g', s', hn', ho', hs', he'⟩

/-- **C66.**  The factors of the reduced singular value decomposition multiply back to the tensor: for every multi-index,
`t[e, x, y] = ∑ₖ u[e, x, k] d[e, k] conj(v[e, y, k])`, when the dense factorisation does so on every matrix. -/
theorem C66_product [AddCommGroup G] [LinearOrder G] [Semiring R] [StarRing R] (fac : Blk R → Blk R × Blk R × Blk R)
    (hfac : SvdSizes fac) (hprod : SvdProduct fac) (t : BT G R) (lead : Shape G) (dr dc : Dim G) (hs : t.shape = lead ++ [dr, dc])
    (hc : Conserving t.shape t.rule t.blocks) (hz : ∀ d ∈ t.shape, 0 < dimSize d) :
    ∃ u d v r, svdFull fac t true = .ok (u, d, v) ∧ u.shape = lead ++ [dr, r] ∧ d.shape = neutralised (lead ++ [r]) ∧
      v.shape = neutralised lead ++ [flipped dc, r] ∧
      ∀ e x y, InRange e (lead.map dimSize) → x < dimSize dr → y < dimSize dc →
        entry t.shape t.blocks (e ++ [x, y]) = ∑ k ∈ range (dimSize r),
          entry u.shape u.blocks (e ++ [x, k]) * entry d.shape d.blocks (e ++ [k]) * star (entry v.shape v.blocks (e ++ [y, k])) := by
  obtain ⟨gs, g1, g2, g3, g4⟩ := C41_compact t lead dr dc hs hc
  obtain ⟨mu, md, mv, h1, ⟨u1, u2⟩, ⟨d1, d2⟩, v1, v2⟩ := svdFull_eq fac t lead dr dc hs hc hz gs g1 g2
  refine ⟨_, _, _, bond dc gs, h1, rfl, rfl, rfl, ?_⟩
  intro e x y he hx hy
  rw [factors_product (r := bond dc gs) (K := fun g => min (matRows g) (matCols g)) hs (fun g hg => by
      obtain ⟨secs, nr, nc, p, q, h, _⟩ := g2 g hg
      exact ⟨secs, nr, nc, p, q, h⟩) g3 g4 u2 d2 v2 (fun n g h => by simp [secSize, bond, h, Nat.min_comm]) (by simp [bond])
    (fun g hg ld nr nc h => by
      obtain ⟨m1, m2⟩ := matRows_eq h
      rw [m1, m2]
      exact ⟨(hfac _ _ _ _ h).1, (hfac _ _ _ _ h).2.2⟩)
    (fun g hg ld nr nc h => by
      obtain ⟨m1, m2⟩ := matRows_eq h
      rw [m1, m2]
      exact hprod _ _ _ _ h) e x y he hx hy]
  refine Finset.sum_congr rfl fun k _ => ?_
  have hd : entry (neutralised (lead ++ [bond dc gs])) md (e ++ [k]) = entry (lead ++ [bond dc gs]) md (e ++ [k]) := by
    unfold entry
    rw [locateAll_neutral]
  have hv : entry (neutralised lead ++ [flipped dc, bond dc gs]) mv (e ++ [y, k]) = entry (lead ++ [dc, bond dc gs]) mv (e ++ [y, k]) := by
    unfold entry
    have h1 : locateAll (neutralised lead ++ [flipped dc, bond dc gs]) (e ++ [y, k]) =
        locateAll (neutralised (lead ++ [flipped dc, bond dc gs])) (e ++ [y, k]) := by
      rw [← locateAll_neutral, neutralised_append, neutralised_append]
      congr 2
      simp [neutralised, Function.comp_def]
    have h2 : neutralised (lead ++ [flipped dc, bond dc gs]) = neutralised (lead ++ [dc, bond dc gs]) := by
      simp [neutralised, flipped, Function.comp_def]
    rw [h1, h2, locateAll_neutral]
  rw [hd, hv]

/-- Summing over the ranges of the sections that tile `0, …, n - 1`. -/
theorem tiles_sum {M : Type} [AddCommMonoid M] {d : Dim G} {n : Nat} {l : List Span} (h : Tiles d n l) (F : Nat → M)
    (g : Nat → Nat → M) (h1 : ∀ s ∈ l, ∀ o < secSize d s.1, g s.1 o = F (s.2.1 + o))
    (h0 : ∀ i, (∀ s ∈ l, s.1 ≠ i) → ∀ o, g i o = 0) :
    ∑ i ∈ range d.length, ∑ o ∈ range (secSize d i), g i o = ∑ r ∈ range n, F r := by
  have hsz : ∀ s ∈ l, s.2.2 = s.2.1 + secSize d s.1 ∧ s.2.2 ≤ n := by
    intro s hs
    obtain ⟨x, e1, e2, e3⟩ := h.size s hs
    exact ⟨by simp [secSize, e1, e2], e3⟩
  have hr : range n = l.toFinset.biUnion fun s => Ico s.2.1 s.2.2 := by
    ext p
    simp only [mem_range, mem_biUnion, List.mem_toFinset, mem_Ico]
    constructor
    · intro hp
      obtain ⟨s, s1, s2, s3⟩ := h.cover p hp
      exact ⟨s, s1, s2, s3⟩
    · rintro ⟨s, s1, _, s3⟩
      have := (hsz s s1).2
      omega
  rw [hr, Finset.sum_biUnion]
  · have himg : ∑ i ∈ range d.length, ∑ o ∈ range (secSize d i), g i o =
        ∑ i ∈ l.toFinset.image Prod.fst, ∑ o ∈ range (secSize d i), g i o := by
      symm
      refine Finset.sum_subset ?_ ?_
      · intro i hi
        obtain ⟨s, s1, rfl⟩ := Finset.mem_image.1 hi
        obtain ⟨x, e1, _⟩ := h.size s (List.mem_toFinset.1 s1)
        exact Finset.mem_range.2 (List.getElem?_eq_some_iff.1 e1).1
      · intro i _ hi
        refine Finset.sum_eq_zero fun o _ => h0 i ?_ o
        intro s hs he
        exact hi (Finset.mem_image.2 ⟨s, List.mem_toFinset.2 hs, he⟩)
    rw [himg, Finset.sum_image]
    · refine Finset.sum_congr rfl fun s hs => ?_
      have hs := List.mem_toFinset.1 hs
      rw [Finset.sum_Ico_eq_sum_range, (hsz s hs).1, Nat.add_sub_cancel_left]
      exact Finset.sum_congr rfl fun o ho => h1 s hs o (Finset.mem_range.1 ho)
    · intro s hs s' hs' he
      exact span_unique h (List.mem_toFinset.1 hs) (List.mem_toFinset.1 hs') he
  · intro s hs s' hs' hne
    rw [Function.onFun, Finset.disjoint_left]
    intro p hp hp'
    rw [mem_Ico] at hp hp'
    exact hne (h.disjoint s (List.mem_toFinset.1 hs) s' (List.mem_toFinset.1 hs') p hp.1 hp.2 hp'.1 hp'.2)

/-- The orthonormality of one factor, from that of the dense factors. -/
theorem factor_ortho [Semiring R] [StarRing R] {gs : List (Mat R)} {m : List (List Nat × Blk R)} {F : Mat R → Blk R}
    {spans : Mat R → List Span} {d r : Dim G} {N K : Mat R → Nat}
    (hm : ∀ k b, lookup m k = some b ↔ ∃ n g, gs[n]? = some g ∧ ∃ s ∈ spans g, k = g.other ++ [s.1, n] ∧ b = rowsOf (F g) s.2)
    (ho : ∀ g ∈ gs, g.other = []) (ht : ∀ g ∈ gs, Tiles d (N g) (spans g)) (hdims : ∀ g ∈ gs, (F g).dims = [N g, K g])
    (hK : ∀ n g, gs[n]? = some g → secSize r n = K g) (hlen : r.length = gs.length)
    (hun : ∀ (n n' : Nat) (g g' : Mat R) s s', gs[n]? = some g → gs[n']? = some g' → s ∈ spans g → s' ∈ spans g' → s.1 = s'.1 → n = n')
    (horth : ∀ g ∈ gs, ∀ a b, a < K g → b < K g →
      ∑ x ∈ range (N g), star ((F g).f [x, a]) * (F g).f [x, b] = if a = b then 1 else 0)
    (k k' : Nat) (hk : k < dimSize r) (hk' : k' < dimSize r) :
    ∑ x ∈ range (dimSize d), star (entry [d, r] m [x, k]) * entry [d, r] m [x, k'] = if k = k' then 1 else 0 := by
  obtain ⟨⟨n, ko⟩, hlk⟩ := locate_isSome.2 hk
  obtain ⟨⟨n', ko'⟩, hlk'⟩ := locate_isSome.2 hk'
  rw [sum_dim' d _ (fun i xo => star (blkAt m [i, n] [xo, ko]) * blkAt m [i, n'] [xo, ko']) (by
    intro x i xo hx
    have e1 := entry_pair (lead := []) (e := []) m rfl hx hlk
    have e2 := entry_pair (lead := []) (e := []) m rfl hx hlk'
    simp only [List.nil_append] at e1 e2
    rw [e1, e2])]
  have hn : n < gs.length := by
    obtain ⟨s, h1, _⟩ := locate_iff.1 hlk
    rw [← hlen]
    exact (List.getElem?_eq_some_iff.1 h1).1
  obtain ⟨g, hg⟩ : ∃ g, gs[n]? = some g := ⟨_, List.getElem?_eq_getElem hn⟩
  have hgm := List.mem_of_getElem? hg
  by_cases hnn : n = n'
  · subst hnn
    have hko : ko < K g := by
      obtain ⟨s, h1, h2, _⟩ := locate_iff.1 hlk
      rw [← hK n g hg]
      simpa [secSize, h1] using h2
    have hko' : ko' < K g := by
      obtain ⟨s, h1, h2, _⟩ := locate_iff.1 hlk'
      rw [← hK n g hg]
      simpa [secSize, h1] using h2
    have hkk : k = k' ↔ ko = ko' := by
      obtain ⟨_, _, _, h3⟩ := locate_iff.1 hlk
      obtain ⟨_, _, _, h3'⟩ := locate_iff.1 hlk'
      omega
    rw [tiles_sum (ht g hgm) (fun x => star ((F g).f [x, ko]) * (F g).f [x, ko']), horth g hgm ko ko' hko hko']
    · simp only [hkk]
    · intro s hs xo hxo
      obtain ⟨x, x1, x2, x3⟩ := (ht g hgm).size s hs
      have e1 := (factor_entry hm [] [] s.1 n xo ko).1 g s hg (ho g hgm) hs rfl
      have e2 := (factor_entry hm [] [] s.1 n xo ko').1 g s hg (ho g hgm) hs rfl
      have e3 := rowsOf_eq (ld := []) (hdims g hgm) (s := s.2) (by omega) x3
      have e4 := e3.2 [] xo ko rfl
      have e5 := e3.2 [] xo ko' rfl
      simp only [List.nil_append] at e1 e2 e4 e5
      rw [e1, e2, e4, e5]
    · intro i hi xo
      have := (factor_entry hm [] [] i n xo ko).2 (by
        intro g' s hg' _ hs
        rw [hg] at hg'
        cases hg'
        exact hi s hs)
      simp only [List.nil_append] at this
      rw [this, star_zero, zero_mul]
  · rw [if_neg (by rintro rfl; rw [hlk] at hlk'; cases hlk'; exact hnn rfl)]
    refine Finset.sum_eq_zero fun i _ => Finset.sum_eq_zero fun xo _ => ?_
    by_cases hi : ∃ s ∈ spans g, s.1 = i
    · obtain ⟨s, s1, s2⟩ := hi
      have := (factor_entry hm [] [] i n' xo ko').2 (by
        intro g' s' hg' _ hs' he
        exact hnn (hun n n' g g' s s' hg hg' s1 hs' (s2.trans he.symm)))
      simp only [List.nil_append] at this
      rw [this, mul_zero]
    · have := (factor_entry hm [] [] i n xo ko).2 (by
        intro g' s hg' _ hs he
        rw [hg] at hg'
        cases hg'
        exact hi ⟨s, hs, he⟩)
      simp only [List.nil_append] at this
      rw [this, star_zero, zero_mul]

/-- **C66.**  For a matrix, the columns of `u` and of `v` are orthonormal over all sections together, when those of the dense
factors are. -/
theorem C66_orthonormal [AddCommGroup G] [LinearOrder G] [Semiring R] [StarRing R] (fac : Blk R → Blk R × Blk R × Blk R)
    (hfac : SvdSizes fac) (horth : SvdOrtho fac) (t : BT G R) (dr dc : Dim G) (hs : t.shape = [dr, dc])
    (hc : Conserving t.shape t.rule t.blocks) (hz : ∀ d ∈ t.shape, 0 < dimSize d) :
    ∃ u d v r, svdFull fac t true = .ok (u, d, v) ∧ u.shape = [dr, r] ∧ v.shape = [flipped dc, r] ∧
      ∀ k k', k < dimSize r → k' < dimSize r →
        (∑ x ∈ range (dimSize dr), star (entry u.shape u.blocks [x, k]) * entry u.shape u.blocks [x, k'] = if k = k' then 1 else 0) ∧
        (∑ y ∈ range (dimSize dc), star (entry v.shape v.blocks [y, k]) * entry v.shape v.blocks [y, k'] = if k = k' then 1 else 0) := by
  obtain ⟨gs, g1, g2, g3, g4⟩ := C41_compact t [] dr dc hs hc
  obtain ⟨mu, md, mv, h1, ⟨u1, u2⟩, ⟨d1, d2⟩, v1, v2⟩ := svdFull_eq fac t [] dr dc hs hc hz gs g1 g2
  have hone : ∀ g ∈ gs, g.other = [] ∧ ∃ nr nc, g.m.dims = [nr, nc] ∧ matRows g = nr ∧ matCols g = nc ∧
      Tiles dr nr g.rows ∧ Tiles dc nc g.cols := by
    intro g hg
    obtain ⟨secs, nr, nc, p, q, hC, _⟩ := g2 g hg
    have hl := sections_length hC.leads
    have ho : g.other = [] := List.length_eq_zero_iff.1 (by simpa using hl.1)
    have hsecs : secs = [] := List.length_eq_zero_iff.1 (by simpa using hl.2)
    have hd := hC.dims
    obtain ⟨m1, m2⟩ := matRows_eq hd
    rw [hsecs] at hd
    exact ⟨ho, nr, nc, hd, m1, m2, hC.rowTiles, hC.colTiles⟩
  have hK : ∀ (n : Nat) (g : Mat R), gs[n]? = some g → secSize (bond dc gs) n = min (matRows g) (matCols g) := by
    intro n g h
    simp [secSize, bond, h, Nat.min_comm]
  have hfl : ∀ y, locate (flipped dc) y = locate dc y := locate_flipped dc
  have hsz : dimSize (flipped dc) = dimSize dc := by simp [dimSize, flipped, Function.comp_def]
  refine ⟨_, _, _, bond dc gs, h1, rfl, rfl, ?_⟩
  intro k k' hk hk'
  constructor
  · refine factor_ortho (N := matRows) (K := fun g => min (matRows g) (matCols g)) u2 (fun g hg => (hone g hg).1) ?_ ?_ hK (by simp [bond])
      ?_ ?_ k k' hk hk'
    · intro g hg
      obtain ⟨_, nr, nc, _, e1, _, e2, _⟩ := hone g hg
      rw [e1]; exact e2
    · intro g hg
      obtain ⟨_, nr, nc, e0, e1, e2, _⟩ := hone g hg
      rw [e1, e2]
      exact (hfac g.m [] nr nc e0).1
    · intro n n' g g' s s' hg hg' hs1 hs2 he
      refine matrix_unique g3 hg hg' ?_ (Or.inl ⟨s, hs1, s', hs2, he⟩)
      rw [(hone g (List.mem_of_getElem? hg)).1, (hone g' (List.mem_of_getElem? hg')).1]
    · intro g hg a b ha hb
      obtain ⟨_, nr, nc, e0, e1, e2, _⟩ := hone g hg
      rw [e1] at ha hb ⊢
      rw [e2] at ha hb
      exact (horth g.m [] nr nc e0 [] a b .nil ha hb).1
  · have := factor_ortho (d := dc) (r := bond dc gs) (N := matCols) (K := fun g => min (matRows g) (matCols g)) v2
      (fun g hg => (hone g hg).1) ?_ ?_ hK (by simp [bond]) ?_ ?_ k k' hk hk'
    · rw [← this]
      refine Finset.sum_congr rfl fun y _ => ?_
      have he : ∀ k, entry [flipped dc, bond dc gs] mv [y, k] = entry [dc, bond dc gs] mv [y, k] := by
        intro k
        unfold entry
        simp only [locateAll, hfl]
      simp only [neutralised, List.map_nil, List.nil_append, he]
    · intro g hg
      obtain ⟨_, nr, nc, _, _, e1, _, e2⟩ := hone g hg
      rw [e1]; exact e2
    · intro g hg
      obtain ⟨_, nr, nc, e0, e1, e2, _⟩ := hone g hg
      rw [e1, e2]
      exact (hfac g.m [] nr nc e0).2.2
    · intro n n' g g' s s' hg hg' hs1 hs2 he
      refine matrix_unique g3 hg hg' ?_ (Or.inr ⟨s, hs1, s', hs2, he⟩)
      rw [(hone g (List.mem_of_getElem? hg)).1, (hone g' (List.mem_of_getElem? hg')).1]
    · intro g hg a b ha hb
      obtain ⟨_, nr, nc, e0, e1, e2, _⟩ := hone g hg
      rw [e1, e2] at ha hb
      rw [e2]
      exact (horth g.m [] nr nc e0 [] a b .nil ha hb).2

/-- **C42 fails** for a tensor with a row or column dimension of size zero: an exception escapes. -/
theorem C42_empty_fails [AddCommGroup G] [LinearOrder G] [Zero R] (fac : Blk R → Blk R × Blk R × Blk R) (t : BT G R)
    (lead : Shape G) (dr dc : Dim G) (hs : t.shape = lead ++ [dr, dc]) (hc : Conserving t.shape t.rule t.blocks)
    (hz : dimSize dr = 0 ∨ dimSize dc = 0) (some_ : Bool) : svdFull fac t some_ = .error (.throw .invalidArgument) := by
  obtain ⟨gs, g1, g2, _⟩ := C41_compact t lead dr dc hs hc
  have hq : gs.mapM (colCharge t.shape) = .ok (gs.map (qOf dc)) := by
    refine mapM_ok fun g hg => ?_
    obtain ⟨_, _, _, _, _, h, _⟩ := g2 g hg
    rw [hs]
    exact (colCharge_eq h.nonempty.2 h.colCharge).1
  have hsf : shapeFrom t (List.replicate (t.shape.length - 2) (-1) ++ [0, 0]) = .error (.throw .invalidArgument) := by
    unfold shapeFrom
    rw [if_neg (by simp [hs]), if_pos]
    · rfl
    · rw [sizes_eq, hs, List.map_append]
      have : (List.replicate ((lead ++ [dr, dc]).length - 2) (-1 : Int) ++ [0, 0]).zip (lead.map dimSize ++ [dr, dc].map dimSize) =
          (List.replicate ((lead ++ [dr, dc]).length - 2) (-1 : Int)).zip (lead.map dimSize) ++ [(0, dimSize dr), (0, dimSize dc)] := by
        rw [List.zip_append (by simp)]
        rfl
      rw [this]
      simp only [List.all_append, List.all_cons]
      rcases hz with h | h <;> simp [h]
  unfold svdFull
  simp only [g1, hq, bind, Except.bind, hsf]

/-- The sizes of a full decomposition: square `u` and `v`. -/
def exFull (m : Blk ℤ) : Blk ℤ × Blk ℤ × Blk ℤ :=
  (⟨[m.dims.getD 0 0, m.dims.getD 0 0], fun o => if o.getD 0 0 = o.getD 1 0 then 1 else 0⟩,
    ⟨[min (m.dims.getD 0 0) (m.dims.getD 1 0)], fun _ => 0⟩,
    ⟨[m.dims.getD 1 0, m.dims.getD 1 0], fun o => if o.getD 0 0 = o.getD 1 0 then 1 else 0⟩)

/-- **C42 fails** for the full decomposition of a matrix that is not square: the new dimension has the larger of the two sizes in
both factors, while torch returns square factors, so a block of `u` does not have the size of its sections. -/
theorem C42_full_fails : ∃ (t u d v : BT ℤ ℤ), Conserving t.shape t.rule t.blocks ∧ (∀ d ∈ t.shape, 0 < dimSize d) ∧
    svdFull exFull t false = .ok (u, d, v) ∧ ¬ Conserving u.shape u.rule u.blocks := by
  refine ⟨⟨[[(1, 0)], [(2, 0)]], 0, [([0, 0], ⟨[1, 2], fun _ => 0⟩)]⟩, _, _, _, ⟨by simp [Sorted], ?_⟩, by simp [dimSize], rfl, ?_⟩
  · intro k b h
    simp only [List.mem_singleton, Prod.mk.injEq] at h
    obtain ⟨rfl, rfl⟩ := h
    exact ⟨[(1, 0), (2, 0)], rfl, rfl, rfl⟩
  · intro h
    obtain ⟨secs, h1, _, h3⟩ := h.block _ _ (List.mem_singleton.2 rfl)
    have h1' : some [((1 : Nat), (0 : ℤ)), (2, 0)] = some secs := h1
    cases h1'
    have h3' : ([1, 1] : List Nat) = [1, 2] := h3
    cases h3'

/-! ### The hypotheses are met -/

/-- `u = 1`, `d = 1`, `v = m†` for a matrix with no more rows than columns, `u = m`, `d = 1`, `v = 1` otherwise: multiplies back. -/
def exProd (m : Blk ℤ) : Blk ℤ × Blk ℤ × Blk ℤ :=
  let n := m.dims.length
  let ld := m.dims.take (n - 2)
  let nr := m.dims.getD (n - 2) 0
  let nc := m.dims.getD (n - 1) 0
  if nr ≤ nc then
    (⟨ld ++ [nr, min nr nc], fun o => if o.getD (o.length - 2) 0 = o.getD (o.length - 1) 0 then 1 else 0⟩, ⟨ld ++ [min nr nc], fun _ => 1⟩,
      ⟨ld ++ [nc, min nr nc], fun o => m.f (o.take (o.length - 2) ++ [o.getD (o.length - 1) 0, o.getD (o.length - 2) 0])⟩)
  else
    (⟨ld ++ [nr, min nr nc], m.f⟩, ⟨ld ++ [min nr nc], fun _ => 1⟩,
      ⟨ld ++ [nc, min nr nc], fun o => if o.getD (o.length - 2) 0 = o.getD (o.length - 1) 0 then 1 else 0⟩)

theorem exProd_eq (m : Blk ℤ) (ld : List Nat) (nr nc : Nat) (h : m.dims = ld ++ [nr, nc]) : exProd m =
    if nr ≤ nc then
    (⟨ld ++ [nr, min nr nc], fun o => if o.getD (o.length - 2) 0 = o.getD (o.length - 1) 0 then 1 else 0⟩, ⟨ld ++ [min nr nc], fun _ => 1⟩,
      ⟨ld ++ [nc, min nr nc], fun o => m.f (o.take (o.length - 2) ++ [o.getD (o.length - 1) 0, o.getD (o.length - 2) 0])⟩)
  else
    (⟨ld ++ [nr, min nr nc], m.f⟩, ⟨ld ++ [min nr nc], fun _ => 1⟩,
      ⟨ld ++ [nc, min nr nc], fun o => if o.getD (o.length - 2) 0 = o.getD (o.length - 1) 0 then 1 else 0⟩) := by
  unfold exProd
  simp only [h, (getD_last2 ld nr nc 0).1, (getD_last2 ld nr nc 0).2, take_last2]

theorem exProd_sizes : SvdSizes exProd := by
  intro m ld nr nc h
  rw [exProd_eq m ld nr nc h]
  split <;> exact ⟨rfl, rfl, rfl⟩

theorem exProd_product : SvdProduct exProd := by
  intro m ld nr nc h e r c he hr hc
  rw [exProd_eq m ld nr nc h]
  split
  · rw [Finset.sum_eq_single r]
    · simp only [(getD_last2 e r r 0).1, (getD_last2 e r r 0).2, (getD_last2 e c r 0).1, (getD_last2 e c r 0).2, take_last2]
      simp
    · intro k _ hk
      simp only [(getD_last2 e r k 0).1, (getD_last2 e r k 0).2]
      simp [Ne.symm hk]
    · intro hk
      simp at hk
      omega
  · rw [Finset.sum_eq_single c]
    · simp only [(getD_last2 e c c 0).1, (getD_last2 e c c 0).2]
      simp
    · intro k _ hk
      simp only [(getD_last2 e c k 0).1, (getD_last2 e c k 0).2]
      simp [Ne.symm hk]
    · intro hk
      simp at hk
      omega

/-- Partial identities: orthonormal columns. -/
def exOrtho (m : Blk ℤ) : Blk ℤ × Blk ℤ × Blk ℤ :=
  let n := m.dims.length
  let ld := m.dims.take (n - 2)
  let nr := m.dims.getD (n - 2) 0
  let nc := m.dims.getD (n - 1) 0
  (⟨ld ++ [nr, min nr nc], fun o => if o.getD (o.length - 2) 0 = o.getD (o.length - 1) 0 then 1 else 0⟩, ⟨ld ++ [min nr nc], fun _ => 1⟩,
    ⟨ld ++ [nc, min nr nc], fun o => if o.getD (o.length - 2) 0 = o.getD (o.length - 1) 0 then 1 else 0⟩)

theorem exOrtho_sizes : SvdSizes exOrtho := by
  intro m ld nr nc h
  unfold exOrtho
  simp only [h, (getD_last2 ld nr nc 0).1, (getD_last2 ld nr nc 0).2, take_last2]
  exact ⟨trivial, trivial, trivial⟩

theorem exOrtho_ortho : SvdOrtho exOrtho := by
  intro m ld nr nc h e a b he ha hb
  have key : ∀ n, a < n → ∑ r ∈ range n, (if r = a then (1 : ℤ) else 0) * (if r = b then 1 else 0) = if a = b then 1 else 0 := by
    intro n hn
    rw [Finset.sum_eq_single a]
    · simp
    · intro r _ hr
      simp [hr]
    · intro hr
      simp at hr
      omega
  unfold exOrtho
  simp only [fun r => (getD_last2 e r a 0).1, fun r => (getD_last2 e r a 0).2, fun r => (getD_last2 e r b 0).1,
    fun r => (getD_last2 e r b 0).2, star_trivial]
  exact ⟨key nr (by omega), key nc (by omega)⟩

example : ∃ u d v, svdFull exProd ex41 true = .ok (u, d, v) ∧ Conserving u.shape u.rule u.blocks ∧
    Conserving d.shape d.rule d.blocks ∧ Conserving v.shape v.rule v.blocks := by
  obtain ⟨u, d, v, r, h, ⟨_, _, h1⟩, ⟨_, _, h2⟩, _, _, h3⟩ :=
    C42_svd_partial exProd exProd_sizes ex41 [] _ _ rfl ex41_conserving (by decide)
  exact ⟨u, d, v, h, h1, h2, h3⟩

example : ∃ u d v r, svdFull exProd ex41 true = .ok (u, d, v) ∧ entry ex41.shape ex41.blocks [3, 3] = 4 ∧
    entry ex41.shape ex41.blocks [3, 3] = ∑ k ∈ range (dimSize (r : Dim ℤ)),
      entry u.shape u.blocks [3, k] * entry d.shape d.blocks [k] * star (entry v.shape v.blocks [3, k]) := by
  obtain ⟨u, d, v, r, h, _, _, _, h1⟩ := C66_product exProd exProd_sizes exProd_product ex41 [] _ _ rfl ex41_conserving (by decide)
  exact ⟨u, d, v, r, h, rfl, h1 [] 3 3 .nil (by decide) (by decide)⟩

example : ∃ u d v, ∃ r : Dim ℤ, svdFull exOrtho ex41 true = .ok (u, d, v) ∧
    ∀ k < dimSize r, ∑ x ∈ range 4, star (entry u.shape u.blocks [x, k]) * entry u.shape u.blocks [x, k] = 1 := by
  obtain ⟨u, d, v, r, h, _, _, h1⟩ := C66_orthonormal exOrtho exOrtho_sizes exOrtho_ortho ex41 _ _ rfl ex41_conserving (by decide)
  exact ⟨u, d, v, r, h, fun k hk => (h1 k k hk hk).1.trans (if_pos rfl)⟩

end BT
end QuantiT
