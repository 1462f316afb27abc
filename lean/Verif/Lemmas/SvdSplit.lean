import Verif.Props.Reshape
import Verif.Props.Svd
import Verif.Props.View
import Verif.Props.Identity
import Verif.Lemmas.Network
import Verif.Lemmas.BlockEdges
/-
Lemmas for the decompositions that group dimensions first.
-/
namespace QuantiT
namespace BT
open Spec Finset
variable {G R : Type}

/-! ### One fused dimension -/

theorem fuse_single [AddCommMonoid G] [DecidableEq G] (d : Dim G) : fuse [d] = d := by
  refine List.ext_getElem? fun i => ?_
  by_cases hi : i < d.length
  · have hs : sections [d] [i] = some [d[i]] := sections_cons.2 ⟨_, [], List.getElem?_eq_getElem hi, rfl, rfl⟩
    have := fuse_getElem? hs
    simp only [secCounts, List.map_cons, List.map_nil, flat, List.prod_nil, Nat.mul_one, Nat.add_zero, List.prod_cons,
      charge, List.sum_cons, List.sum_nil, add_zero] at this
    rw [this, List.getElem?_eq_getElem hi]
  · have hl : (fuse [d]).length = d.length := by rw [fuse_length]; simp [secCounts]
    rw [List.getElem?_eq_none (by omega), List.getElem?_eq_none (by omega)]

theorem fusedIndex_single [AddCommMonoid G] [DecidableEq G] {d : Dim G} {k : Nat} (hk : k < dimSize d) : FusedIndex [d] [k] k := by
  obtain ⟨⟨b, o⟩, hp⟩ := locate_isSome.mpr hk
  obtain ⟨s, h1, _, _⟩ := locate_iff.mp hp
  refine ⟨[b], [o], [s], locateAll_cons.2 ⟨_, _, _, _, hp, rfl, rfl⟩, sections_cons.2 ⟨_, _, h1, rfl, rfl⟩, ?_⟩
  rw [fuse_single, hp]
  simp [rowMajor]

theorem sections_flip [AddCommGroup G] : ∀ (ds : Shape G) (k : List Nat),
    sections (ds.map flipped) k = (sections ds k).map (List.map fun s => (s.1, -s.2))
  | [], [] => rfl
  | [], _ :: _ => rfl
  | _ :: _, [] => rfl
  | d :: ds, b :: bs => by
    simp only [List.map_cons, sections, flipped_getElem?, sections_flip ds bs]
    cases d[b]? <;> cases sections ds bs <;> simp

theorem locateAll_flip [AddCommGroup G] : ∀ (ds : Shape G) (e : List Nat), locateAll (ds.map flipped) e = locateAll ds e
  | [], [] => rfl
  | [], _ :: _ => rfl
  | _ :: _, [] => rfl
  | d :: ds, b :: bs => by simp only [List.map_cons, locateAll, locate_flipped, locateAll_flip ds bs]

theorem charge_flip [AddCommGroup G] (s : List (Nat × G)) : charge (s.map fun s => (s.1, -s.2)) = -charge s := by
  induction s with
  | nil => simp [charge]
  | cons a s ih =>
    simp only [charge, List.map_cons, List.sum_cons] at ih ⊢
    rw [ih, neg_add]

theorem secCounts_flip [AddCommGroup G] (ds : Shape G) : (ds.map flipped).map List.length = ds.map List.length := by
  simp [flipped, Function.comp_def]

theorem sizes_flip [AddCommGroup G] (ds : Shape G) : (ds.map flipped).map dimSize = ds.map dimSize := by
  simp [flipped, Function.comp_def, dimSize]

theorem fuse_flip [AddCommGroup G] [DecidableEq G] (ds : Shape G) : fuse (ds.map flipped) = flipped (fuse ds) := by
  rw [fuse, fuse, secCounts_flip, flipped, List.map_map]
  refine List.map_congr_left fun j _ => ?_
  simp only [Function.comp, sections_flip]
  cases sections ds j with
  | none => simp
  | some s =>
    simp only [Option.map_some, charge_flip]
    simp [Function.comp_def]

theorem fusedIndex_flip [AddCommGroup G] [DecidableEq G] {ds : Shape G} {e : List Nat} {x : Nat} (h : FusedIndex ds e x) :
    FusedIndex (ds.map flipped) e x := by
  obtain ⟨b, o, s, h1, h2, h3⟩ := h
  refine ⟨b, o, s.map fun s => (s.1, -s.2), by rw [locateAll_flip]; exact h1, by rw [sections_flip, h2]; rfl, ?_⟩
  rw [fuse_flip, locate_flipped, secCounts_flip, h3]
  simp [Function.comp_def]

/-- A sum over a fused dimension is a sum over the separate ones. -/
theorem sum_fuse [AddCommMonoid G] [DecidableEq G] [AddCommMonoid R] (ds : Shape G) (F : Nat → R) (F' : List Nat → R)
    (h : ∀ e x, FusedIndex ds e x → x < dimSize (fuse ds) → F' e = F x) :
    ∑ x ∈ range (dimSize (fuse ds)), F x = ∑ e ∈ configs (ds.map dimSize), F' e := by
  obtain ⟨h1, h2⟩ := C26_fused_bijection ds
  choose! f f1 f2 f3 using h1
  choose! g g1 g2 g3 using h2
  symm
  refine sum_nbij' f g ?_ ?_ ?_ ?_ ?_
  · intro e he
    exact mem_range.2 (f2 e (MP.mem_configs.1 he))
  · intro x hx
    exact MP.mem_configs.2 (g2 x (mem_range.1 hx))
  · intro e he
    have he := MP.mem_configs.1 he
    exact (g3 _ (f2 e he) e (f1 e he)).symm
  · intro x hx
    have hx := mem_range.1 hx
    exact (f3 _ (g2 x hx) x (g1 x hx)).symm
  · intro e he
    have he := MP.mem_configs.1 he
    exact h e _ (f1 e he) (f2 e he)

theorem fuse_pos [AddCommMonoid G] [DecidableEq G] {ds : Shape G} (hz : ∀ d ∈ ds, 0 < dimSize d) : 0 < dimSize (fuse ds) := by
  obtain ⟨x, _, hx, _⟩ := (C26_fused_bijection ds).1 (List.replicate ds.length 0) (by
    clear * - hz
    induction ds with
    | nil => exact .nil
    | cons d ds ih => exact .cons (hz d (by simp)) (ih fun d hd => hz d (by simp [hd])))
  omega

theorem aligned_symm {sh sh' : Shape G} {e e' : List Nat} (h : Aligned sh sh' e e') : Aligned sh' sh e' e := by
  obtain ⟨b, o, s, b', o', s', h1, h2, h3, h4, h5, h6⟩ := h
  exact ⟨b', o', s', b, o, s, h3, h4, h1, h2, h5.symm, h6.symm⟩

/-- Separating again the dimensions of the rows of a matrix. -/
theorem unfuse_eq [AddCommGroup G] [DecidableEq G] [Zero R] (t other : BT G R) (ds : Shape G) (b : Dim G) (hs : t.shape = [fuse ds, b])
    (ho : other.shape = ds ++ [b]) (hc : Conserving t.shape t.rule t.blocks) (hds : Populated ds) (hb : b ≠ []) :
    ∃ r, reshapeAs false t other = .ok r ∧ r.shape = ds ++ [b] ∧ r.rule = t.rule ∧ Conserving r.shape r.rule r.blocks ∧
      ∀ e x k, FusedIndex ds e x → k < dimSize b → entry r.shape r.blocks (e ++ [k]) = entry t.shape t.blocks [x, k] := by
  have hmap : ([ds, [b]] : List (Shape G)).map fuse = [fuse ds, b] := by simp [fuse_single]
  have hflat : ([ds, [b]] : List (Shape G)).flatten = ds ++ [b] := by simp
  have hpop : Populated (ds ++ [b]) := by
    intro d hd
    rcases List.mem_append.1 hd with h | h
    · exact hds d h
    · rw [List.mem_singleton.1 h]; exact hb
  have hpop' : Populated t.shape := by
    rw [hs, ← hmap]
    exact fuse_populated (by rw [hflat]; exact hpop)
  obtain ⟨v, q⟩ := fuse_same [ds, [b]]
  rw [hmap, hflat] at v q
  obtain ⟨r, r1, r2, r3, r4, r5⟩ := (C26_reshape_as t other hc hpop' (by rw [ho]; exact hpop)).1
    (by rw [hs, ho]; exact ⟨v.1.symm, fun b b' s s' h1 h2 h3 => (v.2 b' b s' s h2 h1 h3.symm).symm⟩)
    (by rw [hs, ho]; exact fun b b' s s' h1 h2 h3 => (q b' b s' s h2 h1 h3.symm).symm)
  refine ⟨r, r1, r2.trans ho, r3, r4, fun e x k he hk => r5 _ _ ?_⟩
  rw [hs, ho, ← hmap, ← hflat]
  exact aligned_symm (fusedIndices_aligned' ⟨e, [k], x, [k], rfl, rfl, he, [k], [], k, [], rfl, rfl, fusedIndex_single hk, rfl, rfl⟩)

/-! ### The bond -/

theorem nodup_le {l : List Nat} {n : Nat} (h : l.Nodup) (hl : ∀ x ∈ l, x < n) : l.length ≤ n := by
  have := List.subperm_of_subset h (l₂ := List.range n) fun x hx => List.mem_range.2 (hl x hx)
  simpa using this.length_le

/-- Everything known of the factors of a matrix. -/
theorem svdFull_all [AddCommGroup G] [LinearOrder G] [Semiring R] [StarRing R] (fac : Blk R → Blk R × Blk R × Blk R)
    (hfac : SvdSizes fac) (hprod : SvdProduct fac) (horth : SvdOrtho fac) (t : BT G R) (dr dc : Dim G) (hs : t.shape = [dr, dc])
    (hc : Conserving t.shape t.rule t.blocks) (hz : ∀ d ∈ t.shape, 0 < dimSize d) :
    ∃ u d v r, svdFull fac t true = .ok (u, d, v) ∧
      (u.shape = [dr, r] ∧ u.rule = t.rule ∧ Conserving u.shape u.rule u.blocks) ∧
      (d.shape = neutralised [r] ∧ d.rule = 0 ∧ Conserving d.shape d.rule d.blocks) ∧
      (v.shape = [flipped dc, r] ∧ v.rule = 0 ∧ Conserving v.shape v.rule v.blocks) ∧
      (∀ x y, x < dimSize dr → y < dimSize dc → entry t.shape t.blocks [x, y] = ∑ k ∈ range (dimSize r),
          entry u.shape u.blocks [x, k] * entry d.shape d.blocks [k] * star (entry v.shape v.blocks [y, k])) ∧
      (∀ k k', k < dimSize r → k' < dimSize r →
        (∑ x ∈ range (dimSize dr), star (entry u.shape u.blocks [x, k]) * entry u.shape u.blocks [x, k'] = if k = k' then 1 else 0) ∧
        (∑ y ∈ range (dimSize dc), star (entry v.shape v.blocks [y, k]) * entry v.shape v.blocks [y, k'] = if k = k' then 1 else 0)) ∧
      (t.blocks ≠ [] → r ≠ []) ∧ r.length ≤ dr.length ∧ r.length ≤ dc.length ∧ (t.blocks = [] → r = []) ∧
      (SvdReal fac → ∀ k, star (entry d.shape d.blocks [k]) = entry d.shape d.blocks [k]) ∧
      (r.map Prod.snd).Nodup := by
  obtain ⟨u, d, v, r, h1, h2, h3, h4⟩ := C42_svd_partial fac hfac t [] dr dc hs hc hz
  obtain ⟨u', d', v', r', h1', h2', _, _, h5⟩ := C66_product fac hfac hprod t [] dr dc hs hc hz
  rw [h1] at h1'
  cases h1'
  obtain ⟨u', d', v', r'', h1'', h2'', _, h6⟩ := C66_orthonormal fac hfac horth t dr dc hs hc hz
  rw [h1] at h1''
  cases h1''
  have e1 : r' = r := by rw [h2.1] at h2'; simpa using h2'.symm
  have e2 : r'' = r := by rw [h2.1] at h2''; simpa using h2''.symm
  subst e1 e2
  obtain ⟨gs, g1, g2, g3, g4⟩ := C41_compact t [] dr dc hs hc
  obtain ⟨mu, md, mv, q1, _, ⟨_, qd⟩, _⟩ := svdFull_eq fac t [] dr dc hs hc hz gs g1 g2
  rw [h1] at q1
  have e3 : r'' = bond dc gs := by
    have := h2.1
    simp only [Except.ok.injEq, Prod.mk.injEq] at q1
    rw [q1.1] at this
    simpa using this.symm
  have hother : ∀ g ∈ gs, g.other = [] := by
    intro g hg
    obtain ⟨secs, nr, nc, p, q, hC, _⟩ := g2 g hg
    exact List.length_eq_zero_iff.1 (by simpa using (sections_length hC.leads).1)
  refine ⟨u, d, v, r'', h1, h2, h3, h4, fun x y hx hy => h5 [] x y .nil hx hy, h6, ?_, ?_, ?_, ?_, ?_, ?_⟩
  · intro hb
    obtain ⟨⟨k, b⟩, hkb⟩ := List.exists_mem_of_ne_nil _ hb
    obtain ⟨i, ⟨g, hg, _⟩, _⟩ := g4 k b hkb
    rw [e3]
    intro h0
    have : gs = [] := by simpa [bond] using h0
    rw [this] at hg
    simp at hg
  · have hl : (gs.map fun g => (g.rows.head?.map Prod.fst).getD 0).length ≤ dr.length := by
      refine nodup_le ?_ ?_
      · rw [List.Nodup, List.pairwise_map]
        refine List.Pairwise.imp_of_mem ?_ g3
        intro a b ha hb hab
        obtain ⟨_, _, _, _, _, ca, _⟩ := g2 a ha
        obtain ⟨_, _, _, _, _, cb, _⟩ := g2 b hb
        obtain ⟨sa, la, ea⟩ := List.exists_cons_of_ne_nil ca.nonempty.1
        obtain ⟨sb, lb, eb⟩ := List.exists_cons_of_ne_nil cb.nonempty.1
        simp only [ea, eb, List.head?_cons, Option.map_some, Option.getD_some]
        exact (hab (by rw [hother a ha, hother b hb])).1 sa (by simp [ea]) sb (by simp [eb])
      · intro x hx
        obtain ⟨g, hg, rfl⟩ := List.mem_map.1 hx
        obtain ⟨_, _, _, _, _, cg, _⟩ := g2 g hg
        obtain ⟨sa, la, ea⟩ := List.exists_cons_of_ne_nil cg.nonempty.1
        simp only [ea, List.head?_cons, Option.map_some, Option.getD_some]
        obtain ⟨n, hn⟩ := cg.rowCharge sa (by simp [ea])
        exact (List.getElem?_eq_some_iff.1 hn).1
    simpa [e3, bond] using hl
  · have hl : (gs.map fun g => (g.cols.head?.map Prod.fst).getD 0).length ≤ dc.length := by
      refine nodup_le ?_ ?_
      · rw [List.Nodup, List.pairwise_map]
        refine List.Pairwise.imp_of_mem ?_ g3
        intro a b ha hb hab
        obtain ⟨_, _, _, _, _, ca, _⟩ := g2 a ha
        obtain ⟨_, _, _, _, _, cb, _⟩ := g2 b hb
        obtain ⟨sa, la, ea⟩ := List.exists_cons_of_ne_nil ca.nonempty.2
        obtain ⟨sb, lb, eb⟩ := List.exists_cons_of_ne_nil cb.nonempty.2
        simp only [ea, eb, List.head?_cons, Option.map_some, Option.getD_some]
        exact (hab (by rw [hother a ha, hother b hb])).2 sa (by simp [ea]) sb (by simp [eb])
      · intro x hx
        obtain ⟨g, hg, rfl⟩ := List.mem_map.1 hx
        obtain ⟨_, _, _, _, _, cg, _⟩ := g2 g hg
        obtain ⟨sa, la, ea⟩ := List.exists_cons_of_ne_nil cg.nonempty.2
        simp only [ea, List.head?_cons, Option.map_some, Option.getD_some]
        obtain ⟨n, hn⟩ := cg.colCharge sa (by simp [ea])
        exact (List.getElem?_eq_some_iff.1 hn).1
    simpa [e3, bond] using hl
  · intro hb
    rw [e3]
    rcases gs with _ | ⟨g, gs⟩
    · rfl
    · obtain ⟨_, _, _, _, _, cg, _⟩ := g2 g (by simp)
      obtain ⟨sa, la, ea⟩ := List.exists_cons_of_ne_nil cg.nonempty.1
      obtain ⟨s', _, h⟩ := cg.usedRow sa (by simp [ea])
      rw [hb] at h
      exact absurd rfl h
  · intro hreal k
    have ed : d = ⟨neutralised [bond dc gs], 0, md⟩ := by
      simp only [Except.ok.injEq, Prod.mk.injEq] at q1
      exact q1.2.1
    subst ed
    unfold entry
    dsimp only
    cases hl : locateAll (neutralised [bond dc gs]) [k] with
    | none => simp
    | some p =>
      obtain ⟨kb, o⟩ := p
      cases hk : lookup md kb with
      | none => simp [hk]
      | some b =>
        obtain ⟨n, g, hn, hkb, rfl⟩ := (qd kb b).1 hk
        simp only [hk]
        obtain ⟨_, nr, nc, p, q, cg, _⟩ := g2 g (List.mem_of_getElem? hn)
        have hsec : (‹List (Nat × G)› : List (Nat × G)) = [] := List.length_eq_zero_iff.1 (by simpa using (sections_length cg.leads).2)
        have hdims := cg.dims
        rw [hsec] at hdims
        obtain ⟨b', o', bs, os, l1, l2, l3⟩ := locateAll_cons.1 (show locateAll [(bond dc gs).map fun s => (s.1, (0 : G))] [k] = some (kb, o) from hl)
        simp only [locateAll, Option.some.injEq, Prod.mk.injEq] at l2
        obtain ⟨rfl, rfl⟩ := l2
        simp only [Prod.mk.injEq] at l3
        obtain ⟨rfl, rfl⟩ := l3
        rw [hother g (List.mem_of_getElem? hn)] at hkb
        simp only [List.nil_append, List.cons.injEq, and_true] at hkb
        subst hkb
        obtain ⟨s, s1, s2, _⟩ := locate_iff.1 l1
        have hm := matRows_eq (ld := []) hdims
        simp only [bond, List.map_map, List.getElem?_map, hn, Option.map_some, Function.comp, Option.some.injEq] at s1
        subst s1
        simp only [hm.1, hm.2] at s2
        have := hreal g.m [] nr nc hdims [] o' .nil (by rw [Nat.min_comm]; exact s2)
        exact this
  · rw [e3, bond, List.map_map, List.Nodup, List.pairwise_map]
    refine List.Pairwise.imp_of_mem ?_ g3
    intro a b ha hb hab heq
    obtain ⟨sa, _, _, pa, qa, ca, ra⟩ := g2 a ha
    obtain ⟨sb, _, _, pb, qb, cb, rb⟩ := g2 b hb
    have oa := hother a ha
    have ob := hother b hb
    have hsa : sa = [] := List.length_eq_zero_iff.1 (by simpa using (sections_length ca.leads).2)
    have hsb : sb = [] := List.length_eq_zero_iff.1 (by simpa using (sections_length cb.leads).2)
    have hq : qa = qb := by
      rw [← (colCharge_eq (lead := []) (dr := dr) ca.nonempty.2 ca.colCharge).2, ← (colCharge_eq (lead := []) (dr := dr) cb.nonempty.2 cb.colCharge).2]
      exact heq
    subst hq
    have hp : pa = pb := by
      rw [hsa] at ra
      rw [hsb, ← ra] at rb
      simpa using rb.symm
    subst hp
    obtain ⟨x, l, ex⟩ := List.exists_cons_of_ne_nil ca.nonempty.1
    obtain ⟨y, hy, hl⟩ := ca.usedRow x (by simp [ex])
    obtain ⟨blk, hblk⟩ := Option.ne_none_iff_exists'.1 hl
    obtain ⟨n, hn⟩ := ca.rowCharge x (by simp [ex])
    obtain ⟨n', hn'⟩ := ca.colCharge y hy
    rw [show a.other = b.other from oa.trans ob.symm] at hblk
    obtain ⟨s, hs', _, _, hk⟩ := cb.full _ _ _ _ _ (mem_of_lookup hblk) hn hn'
    have := List.append_cancel_left hk
    simp only [List.cons.injEq, and_true] at this
    exact (hab (by rw [oa, ob])).1 x (by simp [ex]) s hs' this.1

end BT
end QuantiT
