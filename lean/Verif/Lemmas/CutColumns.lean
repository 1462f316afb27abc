import Verif.Props.TruncateProduct
import Verif.Props.SvdSplit
import Verif.Spec.SvdDense
/-
Which elements of the bond of a truncated block SVD are which elements of the bond before.
-/
namespace QuantiT
open Spec Finset
namespace BT
variable {G R α : Type}

/-- The bond of size `K'` of the factors `u'`, `d'`, `v'` after the truncation consists of `live` elements, which are the elements
`old k` of the bond of size `K` before it, and elements that are not used. -/
structure Columns [LinearOrder α] [Zero α] [Zero R] (thr : α) (u u' v v' : BT G R) (d d' : BT G α) (lu lv : Shape G) (K K' : Nat)
    (live : Nat → Prop) (old : Nat → Nat) : Prop where
  into : ∀ k, k < K' → live k → old k < K ∧ thr < entry d.shape d.blocks [old k]
  inj : ∀ a b, a < K' → b < K' → live a → live b → old a = old b → a = b
  onto : ∀ k, k < K → thr < entry d.shape d.blocks [k] → ∃ k', k' < K' ∧ live k' ∧ old k' = k
  dLive : ∀ k, k < K' → live k → entry d'.shape d'.blocks [k] = entry d.shape d.blocks [old k]
  dDead : ∀ k, k < K' → ¬ live k → entry d'.shape d'.blocks [k] = 0
  uLive : ∀ k e, k < K' → live k → InRange e (lu.map dimSize) → entry u'.shape u'.blocks (e ++ [k]) = entry u.shape u.blocks (e ++ [old k])
  vLive : ∀ k e, k < K' → live k → InRange e (lv.map dimSize) → entry v'.shape v'.blocks (e ++ [k]) = entry v.shape v.blocks (e ++ [old k])
  uDead : ∀ k e, k < K' → ¬ live k → InRange e (lu.map dimSize) → entry u'.shape u'.blocks (e ++ [k]) = 0
  vDead : ∀ k e, k < K' → ¬ live k → InRange e (lv.map dimSize) → entry v'.shape v'.blocks (e ++ [k]) = 0

theorem resized_fst {keep : Nat → Option Nat} {r sec : Dim G} (hr : r.map Prod.fst = sec.map Prod.fst) :
    (resized keep r).map Prod.fst = (resized keep sec).map Prod.fst := by
  apply List.ext_getElem?
  intro i
  have := congrArg (·[i]?) hr
  simp only [List.getElem?_map] at this
  simp only [resized, List.getElem?_map, List.getElem?_mapIdx, Option.map_map]
  cases h1 : r[i]? <;> cases h2 : sec[i]? <;> simp_all

theorem locate_inj {d : Dim G} {a b : Nat} {p : Nat × Nat} (ha : locate d a = some p) (hb : locate d b = some p) : a = b := by
  obtain ⟨n, ko⟩ := p
  obtain ⟨s, _, _, h1⟩ := locate_iff.1 ha
  obtain ⟨s', _, _, h2⟩ := locate_iff.1 hb
  omega

theorem columns [AddCommMonoid G] [LinearOrder α] [Zero α] [Zero R] {thr : α}
    {u u' v v' : BT G R} {d d' : BT G α} {lu lv : Shape G} {ru rv sec : Dim G}
    (hsu : u.shape = lu ++ [ru]) (hsv : v.shape = lv ++ [rv]) (hsd : d.shape = [sec])
    (hru : ru.map Prod.fst = sec.map Prod.fst) (hrv : rv.map Prod.fst = sec.map Prod.fst)
    (hu : Conserving u.shape u.rule u.blocks) (hv : Conserving v.shape v.rule v.blocks) (hd : Conserving d.shape d.rule d.blocks)
    (hdesc : Descending d.blocks) (hfull : ∀ j, j < sec.length → lookup d.blocks [j] ≠ none)
    (cu : CutFactor (above d.blocks thr) lu ru u u') (cv : CutFactor (above d.blocks thr) lv rv v v')
    (cd : CutFactor (above d.blocks thr) [] sec d d')
    (hu' : Stored u'.shape u'.rule u'.blocks) (hv' : Stored v'.shape v'.rule v'.blocks) (hd' : Stored d'.shape d'.rule d'.blocks)
    (bu : ∀ k j b', (k ++ [j], b') ∈ u'.blocks → lookup u.blocks (k ++ [j]) ≠ none)
    (bv : ∀ k j b', (k ++ [j], b') ∈ v'.blocks → lookup v.blocks (k ++ [j]) ≠ none)
    (bd : ∀ j, lookup d'.blocks [j] = none ↔ above d.blocks thr j = none ∨ above d.blocks thr j = some 0)
    (nu : ∀ k b', (k, b') ∈ u'.blocks → emptiedIn d.blocks thr k = false)
    (nv : ∀ k b', (k, b') ∈ v'.blocks → emptiedIn d.blocks thr k = false) :
    ∃ live old, Columns thr u u' v v' d d' lu lv (dimSize sec) (dimSize (resized (above d.blocks thr) sec)) live old ∧
      ((∀ k, emptiedIn d.blocks thr k = false) → ∀ k, k < dimSize (resized (above d.blocks thr) sec) → live k) := by
  -- the sections
  have hsec : ∀ j, j < sec.length → ∃ n, above d.blocks thr j = some n ∧ n ≤ secSize sec j ∧
      (∀ ko, ko < secSize sec j → (thr < blkAt d.blocks [j] [ko] ↔ ko < n)) := by
    intro j hj
    have hsj : sec[j]? = some sec[j] := List.getElem?_eq_getElem hj
    obtain ⟨b, hb⟩ := Option.ne_none_iff_exists'.1 (hfull j hj)
    have hbd : b.dims.getD 0 0 = sec[j].1 := by
      obtain ⟨secs, s1, _, s3⟩ := hd.block _ _ (mem_of_lookup hb)
      rw [hsd] at s1
      obtain ⟨s', r, s4, s5, rfl⟩ := sections_cons.1 s1
      cases s5
      rw [hsj] at s4
      cases s4
      rw [s3]
      rfl
    have hpre := filter_prefix (n := b.dims.getD 0 0) (p := fun i => decide (thr < b.f [i])) (fun i k hik hk hp => by
      have := hdesc _ (mem_of_lookup hb) i k hik hk
      simp only [decide_eq_true_eq] at hp ⊢
      exact lt_of_lt_of_le hp this)
    refine ⟨((List.range (b.dims.getD 0 0)).filter fun i => decide (thr < b.f [i])).length, by unfold above; rw [hb]; rfl, ?_, ?_⟩
    · rw [secSize_eq_of hsj, ← hbd]
      simpa using List.length_filter_le (fun i => decide (thr < b.f [i])) (List.range (b.dims.getD 0 0))
    · intro ko hko
      rw [secSize_eq_of hsj, ← hbd] at hko
      have := hpre ko hko
      simp only [decide_eq_true_eq] at this
      unfold blkAt
      rw [hb]
      exact this
  have hsz : ∀ j n, j < sec.length → above d.blocks thr j = some (n + 1) →
      (resized (above d.blocks thr) sec)[j]? = some (n + 1, (sec.getD j (0, 0)).2) := by
    intro j n hj ha
    simp [resized, List.getElem?_eq_getElem hj, ha, newSize]
  have hlen : (resized (above d.blocks thr) sec).length = sec.length := by simp [resized]
  have hloc : ∀ {r : Dim G} {k j ko : Nat}, locate r k = some (j, ko) → j < r.length ∧ ko < secSize r j := by
    intro r k j ko h
    obtain ⟨s, h1, h2, _⟩ := locate_iff.1 h
    exact ⟨(List.getElem?_eq_some_iff.1 h1).1, by rw [secSize_eq_of h1]; exact h2⟩
  let live : Nat → Prop := fun k => ∃ j ko n, locate (resized (above d.blocks thr) sec) k = some (j, ko) ∧ above d.blocks thr j = some (n + 1)
  -- where the elements were
  have hold : ∀ k, ∃ k0, live k → ∃ j ko n, locate (resized (above d.blocks thr) sec) k = some (j, ko) ∧
      above d.blocks thr j = some (n + 1) ∧ ko < n + 1 ∧ j < sec.length ∧ locate sec k0 = some (j, ko) := by
    intro k
    by_cases h : live k
    · obtain ⟨j, ko, n, h1, h2⟩ := h
      obtain ⟨h3, h4⟩ := hloc h1
      rw [hlen] at h3
      rw [secSize_eq_of (hsz j n h3 h2)] at h4
      obtain ⟨n', h5, h6, _⟩ := hsec j h3
      rw [h2] at h5
      cases h5
      refine ⟨dimSize (sec.take j) + ko, fun _ => ⟨j, ko, n, h1, h2, h4, h3, ?_⟩⟩
      have hsj : sec[j]? = some sec[j] := List.getElem?_eq_getElem h3
      rw [secSize_eq_of hsj] at h6
      exact locate_iff.2 ⟨sec[j], hsj, by omega, rfl⟩
    · exact ⟨0, fun h' => absurd h' h⟩
  choose old hold using hold
  have hdead : ∀ k, k < dimSize (resized (above d.blocks thr) sec) → ¬ live k →
      ∃ j ko, locate (resized (above d.blocks thr) sec) k = some (j, ko) ∧ above d.blocks thr j = some 0 := by
    intro k hk h
    obtain ⟨⟨j, ko⟩, h1⟩ := locate_isSome.2 hk
    have h3 := (hloc h1).1
    rw [hlen] at h3
    obtain ⟨n, h2, _⟩ := hsec j h3
    cases n with
    | zero => exact ⟨j, ko, h1, h2⟩
    | succ n => exact absurd ⟨j, ko, n, h1, h2⟩ h
  have dEntry : ∀ {k j ko}, locate sec k = some (j, ko) → entry d.shape d.blocks [k] = blkAt d.blocks [j] [ko] := by
    intro k j ko h
    have := entry_single (lead := []) (e := []) d.blocks rfl h
    rw [hsd]
    simpa using this
  have dEntry' : ∀ {k j ko}, locate (resized (above d.blocks thr) sec) k = some (j, ko) →
      entry d'.shape d'.blocks [k] = blkAt d'.blocks [j] [ko] := by
    intro k j ko h
    have := entry_single (lead := []) (e := []) d'.blocks rfl h
    rw [cd.shape]
    simpa using this
  -- a factor
  have hlive : ∀ {w w' : BT G R} {l : Shape G} {r : Dim G}, w.shape = l ++ [r] → r.map Prod.fst = sec.map Prod.fst →
      Conserving w.shape w.rule w.blocks → CutFactor (above d.blocks thr) l r w w' → Stored w'.shape w'.rule w'.blocks →
      (∀ k j b', (k ++ [j], b') ∈ w'.blocks → lookup w.blocks (k ++ [j]) ≠ none) →
      ∀ k e, k < dimSize (resized (above d.blocks thr) sec) → live k → InRange e (l.map dimSize) →
        entry w'.shape w'.blocks (e ++ [k]) = entry w.shape w.blocks (e ++ [old k]) := by
    intro w w' l r hw hr hc cw sw bw k e hk hl he
    obtain ⟨⟨oe, eo⟩, hoe⟩ := locateAll_isSome.2 he
    obtain ⟨j, ko, n, h1, h2, h3, h4, h5⟩ := hold k hl
    have hlr : r.length = sec.length := by simpa using congrArg List.length hr
    rw [cw.shape, hw, entry_single _ hoe (locate_sizes (resized_fst hr) k |>.trans h1), entry_single _ hoe (locate_sizes hr (old k) |>.trans h5)]
    exact cut_entry hw hc cw sw bw hoe h2 (by omega) h3
  have hdeadw : ∀ {w w' : BT G R} {l : Shape G} {r : Dim G}, r.map Prod.fst = sec.map Prod.fst → CutFactor (above d.blocks thr) l r w w' →
      (∀ k b', (k, b') ∈ w'.blocks → emptiedIn d.blocks thr k = false) →
      ∀ k e, k < dimSize (resized (above d.blocks thr) sec) → ¬ live k → InRange e (l.map dimSize) → entry w'.shape w'.blocks (e ++ [k]) = 0 := by
    intro w w' l r hr cw nw k e hk hl he
    obtain ⟨⟨oe, eo⟩, hoe⟩ := locateAll_isSome.2 he
    obtain ⟨j, ko, h1, h2⟩ := hdead k hk hl
    rw [cw.shape, entry_single _ hoe (locate_sizes (resized_fst hr) k |>.trans h1)]
    unfold blkAt
    have : lookup w'.blocks (oe ++ [j]) = none := by
      rw [lookup_eq_none]
      rintro ⟨k', b'⟩ hm rfl
      have := nw _ _ hm
      unfold emptiedIn at this
      simp [h2] at this
    rw [this]
  refine ⟨live, old, ⟨?_, ?_, ?_, ?_, ?_, hlive hsu hru hu cu hu' bu, hlive hsv hrv hv cv hv' bv, hdeadw hru cu nu, hdeadw hrv cv nv⟩, fun hk k hk' => by
    by_contra hcon
    obtain ⟨j, ko, _, h2⟩ := hdead k hk' hcon
    have := hk [j]
    simp [emptiedIn, h2] at this⟩
  · intro k hk hl
    obtain ⟨j, ko, n, h1, h2, h3, h4, h5⟩ := hold k hl
    refine ⟨locate_isSome.1 ⟨_, h5⟩, ?_⟩
    obtain ⟨n', h6, h7, h8⟩ := hsec j h4
    rw [h2] at h6
    cases h6
    rw [dEntry h5]
    exact (h8 ko (by omega)).2 h3
  · intro a b ha hb la lb hab
    obtain ⟨j, ko, n, h1, _, _, _, h5⟩ := hold a la
    obtain ⟨j', ko', n', h1', _, _, _, h5'⟩ := hold b lb
    rw [hab, h5'] at h5
    cases h5
    exact locate_inj h1 h1'
  · intro k hk hthr
    obtain ⟨⟨j, ko⟩, h1⟩ := locate_isSome.2 hk
    obtain ⟨h2, h3⟩ := hloc h1
    obtain ⟨n, h6, h7, h8⟩ := hsec j h2
    rw [dEntry h1, h8 ko h3] at hthr
    obtain ⟨n, rfl⟩ : ∃ m, n = m + 1 := ⟨n - 1, by omega⟩
    have h9 := locate_iff.2 ⟨_, hsz j n h2 h6, hthr, rfl⟩
    refine ⟨_, locate_isSome.1 ⟨_, h9⟩, ⟨j, ko, n, h9, h6⟩, ?_⟩
    obtain ⟨j', ko', n', g1, _, _, _, g5⟩ := hold _ ⟨j, ko, n, h9, h6⟩
    rw [h9] at g1
    cases g1
    exact locate_inj g5 h1
  · intro k hk hl
    obtain ⟨j, ko, n, h1, h2, h3, h4, h5⟩ := hold k hl
    rw [dEntry h5, dEntry' h1]
    have := cut_entry (e := []) (o := []) (eo := []) hsd hd cd hd' (fun k j' b' hb' => by
      have hk0 : k = [] := by
        obtain ⟨secs, s1, _⟩ := hd'.block _ b' hb'
        have := (sections_length s1).1
        rw [cd.shape] at this
        exact List.length_eq_zero_iff.1 (by simpa using this)
      subst hk0
      simp only [List.nil_append] at hb' ⊢
      intro hn
      have h2 : lookup d'.blocks [j'] = none := (bd j').2 (.inl (by unfold above; rw [hn]; rfl))
      exact lookup_eq_none.1 h2 _ hb' rfl) rfl h2 h4 h3
    simpa using this
  · intro k hk hl
    obtain ⟨j, ko, h1, h2⟩ := hdead k hk hl
    rw [dEntry' h1]
    unfold blkAt
    rw [(bd j).2 (.inr h2)]

theorem coe_map_range {β : Type} (f : Nat → β) (n : Nat) : (((List.range n).map f : List β) : Multiset β) = ∑ k ∈ range n, ({f k} : Multiset β) := by
  induction n with
  | zero => rfl
  | succ n ih => rw [List.range_succ, List.map_append, ← Multiset.coe_add, ih, sum_range_succ]; rfl

theorem coe_flatMap_range {β : Type} (f : Nat → List β) (n : Nat) :
    (((List.range n).flatMap f : List β) : Multiset β) = ∑ k ∈ range n, (f k : Multiset β) := by
  induction n with
  | zero => rfl
  | succ n ih => rw [List.range_succ, List.flatMap_append, ← Multiset.coe_add, ih, sum_range_succ]; simp

/-- The values in the blocks of a vector that stores a block in every section are its entries. -/
theorem vectorValues_perm [AddCommMonoid G] [Zero α] {d : BT G α} {sec : Dim G} (hsd : d.shape = [sec]) (hd : Conserving d.shape d.rule d.blocks)
    (hfull : ∀ j, j < sec.length → lookup d.blocks [j] ≠ none) :
    (vectorValues d.blocks).Perm ((List.range (dimSize sec)).map fun k => entry d.shape d.blocks [k]) := by
  have hkey : ∀ kb ∈ d.blocks, ∃ j s, kb.1 = [j] ∧ sec[j]? = some s ∧ kb.2.dims = [s.1] := by
    rintro ⟨k, b⟩ hm
    obtain ⟨secs, s1, _, s3⟩ := hd.block _ _ hm
    rw [hsd] at s1
    rcases k with _ | ⟨j, k⟩
    · simp [sections] at s1
    · obtain ⟨s', r, s4, s5, rfl⟩ := sections_cons.1 s1
      rcases k with _ | ⟨_, _⟩
      · cases s5
        exact ⟨j, s', rfl, s4, s3⟩
      · simp [sections] at s5
  have hkeys : d.blocks.map Prod.fst = (List.range sec.length).map fun j => [j] := by
    have hn1 : (d.blocks.map Prod.fst).Nodup := (Stored.of_conserving hd).distinct
    have hn2 : ((List.range sec.length).map fun j => [j]).Nodup :=
      List.nodup_range.map fun a b h => by simpa using h
    have hp : (d.blocks.map Prod.fst).Perm ((List.range sec.length).map fun j => [j]) := by
      rw [List.perm_ext_iff_of_nodup hn1 hn2]
      intro k
      simp only [List.mem_map, List.mem_range]
      constructor
      · rintro ⟨kb, hm, rfl⟩
        obtain ⟨j, s, h1, h2, _⟩ := hkey kb hm
        exact ⟨j, (List.getElem?_eq_some_iff.1 h2).1, h1.symm⟩
      · rintro ⟨j, hj, rfl⟩
        obtain ⟨b, hb⟩ := Option.ne_none_iff_exists'.1 (hfull j hj)
        exact ⟨_, mem_of_lookup hb, rfl⟩
    refine hp.eq_of_pairwise (le := (· < ·)) ?_ ?_ ?_
    · intro a b _ _ h1 h2
      exact absurd h1 (lt_asymm h2)
    · have := hd.sorted
      unfold Sorted at this
      rw [List.pairwise_map]
      exact this
    · rw [List.pairwise_map]
      refine List.pairwise_lt_range.imp fun {a b} hab => ?_
      exact List.Lex.rel hab
  have hv : vectorValues d.blocks = (d.blocks.map Prod.fst).flatMap fun k =>
      (List.range (secSize sec (k.headD 0))).map fun o => blkAt d.blocks k [o] := by
    unfold vectorValues
    rw [List.flatMap_map]
    refine List.flatMap_congr fun kb hm => ?_
    obtain ⟨j, s, h1, h2, h3⟩ := hkey kb hm
    have hl := lookup_of_mem (e := kb) hd.sorted hm
    rw [h1] at hl ⊢
    rw [h3]
    simp only [List.headD_cons, secSize_eq_of h2, List.getD_cons_zero]
    refine List.map_congr_left fun o _ => ?_
    unfold blkAt
    rw [hl]
  rw [hv, hkeys, List.flatMap_map, ← Multiset.coe_eq_coe, coe_flatMap_range, coe_map_range]
  symm
  rw [sum_dim' sec _ (fun j o => {blkAt d.blocks [j] [o]}) ?_]
  · refine sum_congr rfl fun j _ => ?_
    rw [coe_map_range]
    rfl
  · intro k j ko h
    have := entry_single (lead := []) (e := []) d.blocks rfl h
    rw [hsd]
    simp only [List.nil_append] at this
    rw [this]

/-- The singular values of `svd(tensor, split)`. -/
theorem svdSplit_values {𝕜 : Type} [RCLike 𝕜] [AddCommGroup G] [LinearOrder G] {fac : Blk 𝕜 → Blk 𝕜 × Blk 𝕜 × Blk 𝕜} (hfac : DenseSvd fac)
    (t : BT G 𝕜) (ds1 ds2 : Shape G) (hs : t.shape = ds1 ++ ds2) (h1 : ds1 ≠ []) (h2 : ds2 ≠ []) (hc : Conserving t.shape t.rule t.blocks)
    (hz : ∀ d ∈ t.shape, 0 < dimSize d) {u d v : BT G 𝕜} {b : Dim G} (h : svdSplit fac t ds1.length = .ok (u, d, v))
    (hd : d.shape = neutralised [b]) :
    (∀ j, j < b.length → lookup d.blocks [j] ≠ none) ∧
      ∀ k blk, (k, blk) ∈ d.blocks → ∃ σ : Nat → ℝ, Antitone σ ∧ (∀ i, 0 ≤ σ i) ∧ ∀ i, i < blk.dims.getD 0 0 → blk.f [i] = (σ i : 𝕜) := by
  have hpop : Populated t.shape := fun d hd => by
    rintro rfl
    exact absurd (hz _ hd) (by simp [dimSize])
  have hz1 : ∀ d ∈ ds1, 0 < dimSize d := fun d hd => hz d (by rw [hs]; simp [hd])
  have hz2 : ∀ d ∈ ds2, 0 < dimSize d := fun d hd => hz d (by rw [hs]; simp [hd])
  obtain ⟨r, r1, r2, r3, r4, _⟩ := C26_reshape_partial t hc hpop [ds1, ds2] (by simpa using hs) (by simp) (by simp [h1, h2])
  have hcuts : groupCuts [ds1, ds2] = [ds1.length] := by simp [groupCuts, List.range_succ]
  rw [hcuts] at r1
  have r2 : r.shape = [fuse ds1, fuse ds2] := r2
  have hzr : ∀ d ∈ r.shape, 0 < dimSize d := by
    rw [r2]
    simp [fuse_pos hz1, fuse_pos hz2]
  obtain ⟨gs, g1, g2, _⟩ := C41_compact r [] _ _ r2 r4
  obtain ⟨mu, md, mv, q1, _, ⟨q2, q3⟩, _⟩ := svdFull_eq fac r [] _ _ r2 r4 hzr gs g1 g2
  have hd' : d = ⟨neutralised ([] ++ [bond (fuse ds2) gs]), 0, md⟩ := by
    unfold svdSplit at h
    simp only [r1, q1, bind, Except.bind] at h
    repeat' split at h
    all_goals first | exact ((Prod.mk.inj (Prod.mk.inj (Except.ok.inj h)).2).1).symm | cases h
  subst hd'
  have hb : b.length = gs.length := by
    have := congrArg List.length (List.head_eq_of_cons_eq hd)
    simpa [bond] using this.symm
  have hother : ∀ g ∈ gs, g.other = [] := by
    intro g hg
    obtain ⟨secs, nr, nc, p, q, hC, _⟩ := g2 g hg
    exact List.length_eq_zero_iff.1 (by simpa using (sections_length hC.leads).1)
  constructor
  · intro j hj hn
    rw [hb] at hj
    have := (q3 [j] (fac gs[j].m).2.1).2 ⟨j, gs[j], List.getElem?_eq_getElem hj, by rw [hother _ (List.getElem_mem hj)]; rfl, rfl⟩
    simp only at hn
    rw [hn] at this
    cases this
  · intro k blk hm
    obtain ⟨n, g, hn, _, rfl⟩ := (q3 k blk).1 (lookup_of_mem (e := (k, blk)) q2 hm)
    obtain ⟨secs, nr, nc, p, q, hC, _⟩ := g2 g (List.mem_of_getElem? hn)
    have hsecs : secs = [] := List.length_eq_zero_iff.1 (by simpa using (sections_length hC.leads).2)
    have hdm := hC.dims
    rw [hsecs] at hdm
    obtain ⟨σ, s1, s2, s3⟩ := hfac.values g.m nr nc hdm
    refine ⟨σ, s1, s2, fun i hi => s3 i ?_⟩
    have := (hfac.sizes _ [] _ _ hdm).2.1
    simp only [this] at hi
    exact hi

end BT
end QuantiT
