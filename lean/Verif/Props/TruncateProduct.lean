import Verif.Props.BlockTruncate
import Verif.Props.Svd
import Verif.Lemmas.Broadcast
import Verif.Lemmas.SvdExists
import Mathlib.Tactic.Ring
/-
C68: the product of truncated factors.
-/
namespace QuantiT
open Spec Finset
namespace BT
variable {G R α : Type}

theorem lookup_of_distinct {V : Type} {m : List (List Nat × V)} {e : List Nat × V} (hs : (m.map Prod.fst).Nodup) (h : e ∈ m) :
    lookup m e.1 = some e.2 := by
  induction m with
  | nil => simp at h
  | cons x m ih =>
    rw [List.map_cons, List.nodup_cons] at hs
    rw [lookup_cons]
    rcases List.mem_cons.mp h with rfl | h
    · simp
    · rw [if_neg fun hx => hs.1 (List.mem_map.2 ⟨e, h, hx.symm⟩)]
      exact ih hs.2 h

theorem Stored.of_conserving [AddCommMonoid G] {sh : Shape G} {rule : G} {bl : List (List Nat × Blk R)} (h : Conserving sh rule bl) :
    Stored sh rule bl := by
  refine ⟨?_, h.block⟩
  have := h.sorted
  unfold Sorted at this
  unfold List.Nodup
  rw [List.pairwise_map]
  exact this.imp fun {a b} hab => ne_of_lt hab

theorem lookup_cut [Zero R] {bl bl' : List (List Nat × Blk R)} {k : List Nat} {n : Nat} {o : List Nat}
    (hs' : (bl'.map Prod.fst).Nodup)
    (hcut : ∀ b, (k, b) ∈ bl → ∃ b', (k, b') ∈ bl' ∧ FirstCols n b b' ∧ InRange o b'.dims)
    (hback : ∀ b', (k, b') ∈ bl' → lookup bl k ≠ none) : blkAt bl' k o = blkAt bl k o := by
  unfold blkAt
  cases h : lookup bl k with
  | none =>
    have : lookup bl' k = none := by
      rw [lookup_eq_none]
      rintro ⟨k', b'⟩ hm rfl
      exact hback b' hm h
    rw [this]
  | some b =>
    obtain ⟨b', h1, h2, h3⟩ := hcut b (mem_of_lookup h)
    rw [lookup_of_distinct (e := (k, b')) hs' h1]
    exact h2.2 o h3

theorem secSize_eq_of {d : Dim G} {j : Nat} {s : Nat × G} (h : d[j]? = some s) : secSize d j = s.1 := by
  simp [secSize, h]

theorem inRange_append : ∀ {o ds o2 ds2 : List Nat}, InRange o ds → InRange o2 ds2 → InRange (o ++ o2) (ds ++ ds2)
  := by
  intro o ds o2 ds2 h h2
  exact List.rel_append h h2

/-- Entries of a factor that has been cut, at an element that is kept. -/
theorem cut_entry [AddCommMonoid G] [LinearOrder α] [Zero R] {B : List (List Nat × Blk α)} {thr : α} {u u' : BT G R} {lead : Shape G} {r : Dim G}
    (hs : u.shape = lead ++ [r]) (hu : Conserving u.shape u.rule u.blocks) (hcut : CutFactor (above B thr) lead r u u')
    (hu' : Stored u'.shape u'.rule u'.blocks)
    (hback : ∀ k j b', (k ++ [j], b') ∈ u'.blocks → lookup u.blocks (k ++ [j]) ≠ none)
    {e o eo : List Nat} {j n ko : Nat} (he : locateAll lead e = some (o, eo)) (hn : above B thr j = some (n + 1)) (hj : j < r.length)
    (hk : ko < n + 1) : blkAt u'.blocks (o ++ [j]) (eo ++ [ko]) = blkAt u.blocks (o ++ [j]) (eo ++ [ko]) := by
  have hrj : r[j]? = some r[j] := List.getElem?_eq_getElem hj
  refine lookup_cut (n := n + 1) hu'.distinct ?_ (fun b' hb' => hback _ _ _ hb')
  intro b hb
  obtain ⟨b', h1, h2⟩ := hcut.cut o j b _ hb hrj (by rw [hn]; simp)
  rw [hn] at h2
  refine ⟨b', h1, h2, ?_⟩
  rw [h2.1]
  obtain ⟨secs, s1, _, s3⟩ := hu.block _ _ hb
  rw [hs] at s1
  obtain ⟨secs', t1, t2⟩ := locateAll_sections he
  have t3 : sections (lead ++ [r]) (o ++ [j]) = some (secs' ++ [r[j]]) := sections_append t1 (sections_cons.2 ⟨_, [], hrj, rfl, rfl⟩)
  rw [t3] at s1
  cases s1
  rw [s3]
  simp only [List.map_append, List.map_cons, List.map_nil, List.dropLast_concat]
  exact inRange_append t2 (.cons hk .nil)

theorem filter_prefix {n : Nat} {p : Nat → Bool} (h : ∀ i j, i ≤ j → j < n → p j = true → p i = true) :
    ∀ i, i < n → (p i = true ↔ i < ((List.range n).filter p).length) := by
  induction n with
  | zero => intro i hi; omega
  | succ n ih =>
    have ih := ih fun i j hij hj => h i j hij (by omega)
    intro i hi
    rw [List.range_succ, List.filter_append]
    have hle : ((List.range n).filter p).length ≤ n := by
      simpa using List.length_filter_le p (List.range n)
    by_cases hp : p n = true
    · have hall : ((List.range n).filter p).length = n := by
        rw [List.filter_eq_self.2]
        · simp
        · intro a ha
          exact h a n (by have := List.mem_range.1 ha; omega) (by omega) hp
      simp only [List.length_append, hall, List.filter_cons, hp, if_true, List.filter_nil, List.length_cons, List.length_nil]
      exact ⟨fun _ => by omega, fun _ => h i n (by omega) (by omega) hp⟩
    · have hp' : p n = false := by simpa using hp
      simp only [List.length_append, List.filter_cons, hp', Bool.false_eq_true, if_false, List.filter_nil, List.length_nil, Nat.add_zero]
      rcases Nat.lt_succ_iff_lt_or_eq.1 hi with hi' | rfl
      · exact ih i hi'
      · exact ⟨fun h' => absurd h' hp, fun h' => by omega⟩

theorem truncated_sum [AddCommMonoid G] [LinearOrder α] [Zero α] [Semiring R] (φ : α → R) (ψ : R → R) (hφ : φ 0 = 0) {thr : α}
    {u u' v v' : BT G R} {d d' : BT G α} {lu lv : Shape G} {ru rv sec : Dim G}
    (hsu : u.shape = lu ++ [ru]) (hsv : v.shape = lv ++ [rv]) (hsd : d.shape = [sec])
    (hru : ru.map Prod.fst = sec.map Prod.fst) (hrv : rv.map Prod.fst = sec.map Prod.fst)
    (hu : Conserving u.shape u.rule u.blocks) (hv : Conserving v.shape v.rule v.blocks) (hd : Conserving d.shape d.rule d.blocks)
    (hdesc : Descending d.blocks)
    (cu : CutFactor (above d.blocks thr) lu ru u u') (cv : CutFactor (above d.blocks thr) lv rv v v')
    (cd : CutFactor (above d.blocks thr) [] sec d d')
    (hu' : Stored u'.shape u'.rule u'.blocks) (hv' : Stored v'.shape v'.rule v'.blocks) (hd' : Stored d'.shape d'.rule d'.blocks)
    (bu : ∀ k j b', (k ++ [j], b') ∈ u'.blocks → lookup u.blocks (k ++ [j]) ≠ none)
    (bv : ∀ k j b', (k ++ [j], b') ∈ v'.blocks → lookup v.blocks (k ++ [j]) ≠ none)
    (bd : ∀ j, lookup d'.blocks [j] = none ↔ above d.blocks thr j = none ∨ above d.blocks thr j = some 0)
    {eu ev : List Nat} (heu : InRange eu (lu.map dimSize)) (hev : InRange ev (lv.map dimSize)) :
    ∑ k ∈ range (dimSize (resized (above d.blocks thr) sec)),
        entry u'.shape u'.blocks (eu ++ [k]) * φ (entry d'.shape d'.blocks [k]) * ψ (entry v'.shape v'.blocks (ev ++ [k])) =
      ∑ k ∈ range (dimSize sec), if thr < entry d.shape d.blocks [k] then
        entry u.shape u.blocks (eu ++ [k]) * φ (entry d.shape d.blocks [k]) * ψ (entry v.shape v.blocks (ev ++ [k])) else 0 := by
  obtain ⟨⟨ou, eou⟩, hou⟩ := locateAll_isSome.2 heu
  obtain ⟨⟨ov, eov⟩, hov⟩ := locateAll_isSome.2 hev
  have hfst : ∀ {r : Dim G}, r.map Prod.fst = sec.map Prod.fst →
      (resized (above d.blocks thr) r).map Prod.fst = (resized (above d.blocks thr) sec).map Prod.fst := by
    intro r hr
    apply List.ext_getElem?
    intro i
    have := congrArg (·[i]?) hr
    simp only [List.getElem?_map] at this
    simp only [resized, List.getElem?_map, List.getElem?_mapIdx, Option.map_map]
    cases h1 : r[i]? <;> cases h2 : sec[i]? <;> simp_all
  rw [sum_dim' (resized (above d.blocks thr) sec) _ (fun n ko =>
      blkAt u'.blocks (ou ++ [n]) (eou ++ [ko]) * φ (blkAt d'.blocks [n] [ko]) * ψ (blkAt v'.blocks (ov ++ [n]) (eov ++ [ko])))
    (fun k n ko hk => by
      rw [cu.shape, cv.shape, cd.shape, entry_single _ hou (locate_sizes (hfst hru) k |>.trans hk),
        entry_single _ hov (locate_sizes (hfst hrv) k |>.trans hk)]
      have := entry_single (lead := []) (e := []) d'.blocks rfl hk
      simp only [List.nil_append] at this ⊢
      rw [this])]
  rw [sum_dim' sec _ (fun n ko => if thr < blkAt d.blocks [n] [ko] then
      blkAt u.blocks (ou ++ [n]) (eou ++ [ko]) * φ (blkAt d.blocks [n] [ko]) * ψ (blkAt v.blocks (ov ++ [n]) (eov ++ [ko])) else 0)
    (fun k n ko hk => by
      rw [hsu, hsv, hsd, entry_single _ hou (locate_sizes hru k |>.trans hk), entry_single _ hov (locate_sizes hrv k |>.trans hk)]
      have := entry_single (lead := []) (e := []) d.blocks rfl hk
      simp only [List.nil_append] at this ⊢
      rw [this])]
  have hlen : (resized (above d.blocks thr) sec).length = sec.length := by simp [resized]
  rw [hlen]
  refine Finset.sum_congr rfl fun j hj => ?_
  have hj := Finset.mem_range.1 hj
  have hlu : ru.length = sec.length := by simpa using congrArg List.length hru
  have hlv : rv.length = sec.length := by simpa using congrArg List.length hrv
  have hsj : sec[j]? = some sec[j] := List.getElem?_eq_getElem hj
  have hzero : lookup d'.blocks [j] = none → ∑ ko ∈ range (secSize (resized (above d.blocks thr) sec) j),
      blkAt u'.blocks (ou ++ [j]) (eou ++ [ko]) * φ (blkAt d'.blocks [j] [ko]) * ψ (blkAt v'.blocks (ov ++ [j]) (eov ++ [ko])) = 0 := by
    intro h
    refine Finset.sum_eq_zero fun ko _ => ?_
    have : blkAt d'.blocks [j] [ko] = 0 := by unfold blkAt; rw [h]
    rw [this, hφ]
    simp
  cases ha : above d.blocks thr j with
  | none =>
    rw [hzero ((bd j).2 (.inl ha))]
    symm
    refine Finset.sum_eq_zero fun ko _ => ?_
    have hl : lookup d.blocks [j] = none := by
      unfold above at ha
      simpa using ha
    have : blkAt d.blocks [j] [ko] = 0 := by unfold blkAt; rw [hl]
    rw [this, hφ]
    simp
  | some n =>
    obtain ⟨b, hb, hcount⟩ : ∃ b, lookup d.blocks [j] = some b ∧
        ((List.range (b.dims.getD 0 0)).filter fun i => decide (thr < b.f [i])).length = n := by
      unfold above at ha
      exact Option.map_eq_some_iff.1 ha
    have hbd : b.dims.getD 0 0 = sec[j].1 := by
      obtain ⟨secs, s1, _, s3⟩ := hd.block _ _ (mem_of_lookup hb)
      rw [hsd] at s1
      obtain ⟨s', r, s4, s5, rfl⟩ := sections_cons.1 s1
      cases s5
      rw [hsj] at s4
      cases s4
      rw [s3]
      rfl
    have hpre := filter_prefix (n := b.dims.getD 0 0) (p := fun i => decide (thr < b.f [i])) (fun i k hik hk hp => by
      have := hdesc _ (mem_of_lookup hb) i k hik hk
      simp only [decide_eq_true_eq] at hp ⊢
      exact lt_of_lt_of_le hp this)
    rw [hcount, hbd] at hpre
    simp only [decide_eq_true_eq] at hpre
    have hat : ∀ ko, blkAt d.blocks [j] [ko] = b.f [ko] := by
      intro ko
      unfold blkAt
      rw [hb]
    rw [secSize_eq_of hsj]
    have hle : n ≤ sec[j].1 := by
      rw [← hbd, ← hcount]
      simpa using List.length_filter_le (fun i => decide (thr < b.f [i])) (List.range (b.dims.getD 0 0))
    cases n with
    | zero =>
      rw [hzero ((bd j).2 (.inr ha))]
      symm
      refine Finset.sum_eq_zero fun ko hko => ?_
      rw [hat, if_neg]
      rw [hpre ko (Finset.mem_range.1 hko)]
      omega
    | succ n =>
      have hsz : secSize (resized (above d.blocks thr) sec) j = n + 1 := by
        have : (resized (above d.blocks thr) sec)[j]? = some (n + 1, sec[j].2) := by
          simp [resized, hsj, ha, newSize]
        exact secSize_eq_of this
      rw [hsz, ← Finset.sum_subset (Finset.range_subset_range.2 hle) (fun ko h1 h2 => by
        rw [hat, if_neg]
        rw [hpre ko (Finset.mem_range.1 h1)]
        simpa using h2)]
      refine Finset.sum_congr rfl fun ko hko => ?_
      have hko := Finset.mem_range.1 hko
      rw [if_pos (by rw [hat]; exact (hpre ko (by omega)).2 hko)]
      rw [cut_entry hsu hu cu hu' bu hou ha (by omega) hko, cut_entry hsv hv cv hv' bv hov ha (by omega) hko]
      have := cut_entry (e := []) (o := []) (eo := []) hsd hd cd hd' (fun k j' b' hb' => by
        have hk0 : k = [] := by
          obtain ⟨secs, s1, _⟩ := hd'.block _ b' hb'
          have := (sections_length s1).1
          rw [cd.shape] at this
          exact List.length_eq_zero_iff.1 (by simpa using this)
        subst hk0
        simp only [List.nil_append] at hb' ⊢
        intro hn
        have h2 : lookup d'.blocks [j'] = none := (bd j').2 (.inl (by unfold above; rw [hn]; rfl))
        exact lookup_eq_none.1 h2 _ hb' rfl) rfl ha hj hko
      simp only [List.nil_append] at this
      rw [this]

/-- **C68.**  The product of the truncated factors is the sum of the terms whose value is kept: nothing else of the product
changes, whatever happens to the blocks of sections that lose all their values.  `φ` takes the values, which are real, to the type of
the factors; `ψ` is the conjugation of the last factor, or nothing. -/
theorem C68_product [AddCommMonoid G] [Field α] [LinearOrder α] [IsStrictOrderedRing α] [Semiring R] (φ : α → R) (ψ : R → R) (hφ : φ 0 = 0)
    (u v : BT G R) (d : BT G α) (lu lv : Shape G) (ru rv sec : Dim G)
    (hsu : u.shape = lu ++ [ru]) (hsv : v.shape = lv ++ [rv]) (hsd : d.shape = [sec])
    (hru : ru.map Prod.fst = sec.map Prod.fst) (hrv : rv.map Prod.fst = sec.map Prod.fst)
    (hu : Conserving u.shape u.rule u.blocks) (hv : Conserving v.shape v.rule v.blocks) (hd : Conserving d.shape d.rule d.blocks)
    (hdesc : Descending d.blocks) (hne : vectorValues d.blocks ≠ []) (hlen : (vectorValues d.blocks).length < 2 ^ 63)
    (maxS minS : Nat) (hmin : 1 ≤ minS) (tol : α) (htol : 0 ≤ tol) (pw : α → α) (hpw : ∀ x, 0 ≤ x → 0 ≤ pw x) (eps : α) :
    ∃ thr u' d' v' sec', truncateSvd (u, d, v) maxS minS tol pw eps = .ok (u', d', v') ∧ d'.shape = [sec'] ∧
      vectorValues d'.blocks = (vectorValues d.blocks).filter (fun x => decide (thr < x)) ∧
      ∀ eu ev, InRange eu (lu.map dimSize) → InRange ev (lv.map dimSize) →
        ∑ k ∈ range (dimSize sec'), entry u'.shape u'.blocks (eu ++ [k]) * φ (entry d'.shape d'.blocks [k]) *
            ψ (entry v'.shape v'.blocks (ev ++ [k])) =
          ∑ k ∈ range (dimSize sec), if thr < entry d.shape d.blocks [k] then entry u.shape u.blocks (eu ++ [k]) *
            φ (entry d.shape d.blocks [k]) * ψ (entry v.shape v.blocks (ev ++ [k])) else 0 := by
  obtain ⟨thr, d', us', h1, ⟨h2, h3, h4, h5, h6⟩, h7, h8⟩ := C40_factors_partial d [u, v] sec hsd hd hdesc hne hlen (by
    intro w hw
    simp only [List.mem_cons, List.not_mem_nil, or_false] at hw
    rcases hw with rfl | rfl
    · exact ⟨hu, lu, ru, hsu, hru⟩
    · exact ⟨hv, lv, rv, hsv, hrv⟩) maxS minS hmin tol htol pw hpw eps
  cases h8 with
  | cons hfu h8 =>
    cases h8 with
    | cons hfv h8 =>
      cases h8
      rename_i u' v'
      obtain ⟨cu, su, bu, -⟩ := hfu lu ru hsu
      obtain ⟨cv, sv, bv, -⟩ := hfv lv rv hsv
      refine ⟨thr, u', d', v', _, ?_, h2, h7, ?_⟩
      · unfold truncateSvd
        rw [h1]
        rfl
      · have back : ∀ {w w' : BT G R}, (∀ k b', (k, b') ∈ w'.blocks → ∃ b, (k, b) ∈ w.blocks ∧ (emptiedIn d.blocks thr k → b' = b)) →
            ∀ k j b', (k ++ [j], b') ∈ w'.blocks → lookup w.blocks (k ++ [j]) ≠ none := by
          intro w w' h k j b' hm hn
          obtain ⟨b, hb, -⟩ := h _ _ hm
          exact lookup_eq_none.1 hn _ hb rfl
        exact fun eu ev heu hev => truncated_sum φ ψ hφ hsu hsv hsd hru hrv hu hv hd hdesc cu cv h5 su sv (Stored.of_conserving h4)
          (back bu) (back bv) h6 heu hev

/-- The square of the Frobenius norm of a sum of orthonormal terms. -/
theorem frobenius [CommRing α] (m n K : Nat) (U V : Nat → Nat → α) (c : Nat → α)
    (hU : ∀ k l, k < K → l < K → ∑ x ∈ range m, U x k * U x l = if k = l then 1 else 0)
    (hV : ∀ k l, k < K → l < K → ∑ y ∈ range n, V y k * V y l = if k = l then 1 else 0) :
    ∑ x ∈ range m, ∑ y ∈ range n, (∑ k ∈ range K, U x k * c k * V y k) ^ 2 = ∑ k ∈ range K, c k ^ 2 := by
  have h1 : ∀ x y, (∑ k ∈ range K, U x k * c k * V y k) ^ 2 =
      ∑ k ∈ range K, ∑ l ∈ range K, c k * c l * ((U x k * U x l) * (V y k * V y l)) := by
    intro x y
    rw [sq, Finset.sum_mul_sum]
    refine Finset.sum_congr rfl fun k _ => Finset.sum_congr rfl fun l _ => ?_
    ring
  simp only [h1]
  have h2 : ∀ x, ∑ y ∈ range n, ∑ k ∈ range K, ∑ l ∈ range K, c k * c l * ((U x k * U x l) * (V y k * V y l)) =
      ∑ k ∈ range K, ∑ l ∈ range K, c k * c l * ((U x k * U x l) * ∑ y ∈ range n, V y k * V y l) := by
    intro x
    rw [Finset.sum_comm]
    refine Finset.sum_congr rfl fun k _ => ?_
    rw [Finset.sum_comm]
    refine Finset.sum_congr rfl fun l _ => ?_
    rw [Finset.mul_sum, Finset.mul_sum]
  simp only [h2]
  rw [Finset.sum_comm]
  refine Finset.sum_congr rfl fun k hk => ?_
  rw [Finset.sum_comm]
  have hk := Finset.mem_range.1 hk
  rw [Finset.sum_eq_single k]
  · rw [hV k k hk hk, ← Finset.mul_sum]
    simp only [if_true, mul_one]
    rw [hU k k hk hk]
    simp [sq]
  · intro l hl hlk
    rw [hV k l hk (Finset.mem_range.1 hl), if_neg (Ne.symm hlk)]
    simp
  · intro h
    exact absurd (Finset.mem_range.2 hk) h

/-- C68. The error of a truncated SVD: the square of the Frobenius distance between the tensor and the product of the truncated
factors is the sum of the squares of the singular values that are discarded.  For tensors of two dimensions over an
ordered field, if there is a singular value at all; `C68_error_split` has real and complex tensors of any number of dimensions. -/
theorem C68_error_matrix [AddCommGroup G] [LinearOrder G] [Field α] [LinearOrder α] [IsStrictOrderedRing α] [StarRing α] [TrivialStar α]
    (fac : Blk α → Blk α × Blk α × Blk α) (hfac : SvdSizes fac) (hprod : SvdProduct fac) (horth : SvdOrtho fac) (hdec : SvdDescending fac)
    (t : BT G α) (dr dc : Dim G) (hs : t.shape = [dr, dc]) (hc : Conserving t.shape t.rule t.blocks) (hz : ∀ d ∈ t.shape, 0 < dimSize d)
    (maxS minS : Nat) (hmin : 1 ≤ minS) (tol : α) (htol : 0 ≤ tol) (pw : α → α) (hpw : ∀ x, 0 ≤ x → 0 ≤ pw x) (eps : α) :
    ∃ u d v r, svdFull fac t true = .ok (u, d, v) ∧ d.shape = [r] ∧
      (vectorValues d.blocks ≠ [] → (vectorValues d.blocks).length < 2 ^ 63 →
        ∃ thr u' d' v' r', truncateSvd (u, d, v) maxS minS tol pw eps = .ok (u', d', v') ∧ d'.shape = [r'] ∧
          vectorValues d'.blocks = (vectorValues d.blocks).filter (fun x => decide (thr < x)) ∧
          ∑ x ∈ range (dimSize dr), ∑ y ∈ range (dimSize dc), (entry t.shape t.blocks [x, y] - ∑ k ∈ range (dimSize r'),
              entry u'.shape u'.blocks [x, k] * entry d'.shape d'.blocks [k] * entry v'.shape v'.blocks [y, k]) ^ 2 =
            ∑ k ∈ range (dimSize r), if thr < entry d.shape d.blocks [k] then 0 else entry d.shape d.blocks [k] ^ 2) := by
  obtain ⟨gs, g1, g2, _⟩ := C41_compact t [] dr dc hs hc
  obtain ⟨mu, md, mv, h1, _, ⟨d1, d2⟩, _⟩ := svdFull_eq fac t [] dr dc hs hc hz gs g1 g2
  obtain ⟨u, d, v, r, e, ⟨us, _, uc⟩, ⟨ds, _, dc'⟩, ⟨vs, _, vc⟩⟩ := C42_svd_partial fac hfac t [] dr dc hs hc hz
  obtain ⟨u2, d2', v2, r2, e2, us2, ds2, vs2, hp⟩ := C66_product fac hfac hprod t [] dr dc hs hc hz
  obtain ⟨u3, d3, v3, r3, e3, us3, vs3, ho⟩ := C66_orthonormal fac hfac horth t dr dc hs hc hz
  rw [e] at e2 e3 h1
  cases e2
  cases e3
  rw [us] at us2 us3
  simp only [List.nil_append] at us us2 us3 vs vs2 vs3
  have hr2 : r = r2 := by simpa using us2
  have hr3 : r = r3 := by simpa using us3
  subst hr2
  subst hr3
  have hds : d.shape = [r.map fun s => (s.1, 0)] := by rw [ds]; rfl
  have hfst : r.map Prod.fst = (r.map fun s => (s.1, (0 : G))).map Prod.fst := by simp [Function.comp_def]
  have hsize : dimSize (r.map fun s => (s.1, (0 : G))) = dimSize r := by simp [dimSize, Function.comp_def]
  have hdb : d.blocks = md := by
    have := congrArg (fun p => p.2.1.blocks) (Except.ok.inj h1)
    exact this
  have hdesc : Descending d.blocks := by
    rw [hdb]
    rintro ⟨k, b⟩ hm i j hij hj
    obtain ⟨n, g, hn, _, rfl⟩ := (d2 k b).1 (lookup_of_mem (e := (k, b)) d1 hm)
    obtain ⟨secs, nr, nc, p, q, hC, _⟩ := g2 g (List.mem_of_getElem? hn)
    have hl := sections_length hC.leads
    have hsecs : secs = [] := List.length_eq_zero_iff.1 (by simpa using hl.2)
    have hd := hC.dims
    rw [hsecs] at hd
    have hj' : j < min nr nc := by
      have := (hfac _ _ _ _ hd).2.1
      simp only [this] at hj
      exact hj
    exact hdec _ [] nr nc hd [] i j .nil hij hj'
  refine ⟨u, d, v, _, e, hds, ?_⟩
  intro hne hlen
  obtain ⟨thr, u', d', v', r', k1, k0, k2, k3⟩ := C68_product (R := α) id id rfl u v d [dr] (neutralised [] ++ [flipped dc]) r r
    _ us (by rw [vs]; rfl) hds hfst hfst uc vc dc' hdesc hne hlen maxS minS hmin tol htol pw hpw eps
  refine ⟨thr, u', d', v', r', k1, k0, k2, ?_⟩
  have hfl : dimSize (flipped dc) = dimSize dc := by simp [dimSize, flipped, Function.comp_def]
  rw [hsize] at k3 ⊢
  have hterm : ∀ x y, x < dimSize dr → y < dimSize dc → entry t.shape t.blocks [x, y] - ∑ k ∈ range (dimSize r'),
      entry u'.shape u'.blocks [x, k] * entry d'.shape d'.blocks [k] * entry v'.shape v'.blocks [y, k] =
      ∑ k ∈ range (dimSize r), entry u.shape u.blocks [x, k] *
        (if thr < entry d.shape d.blocks [k] then 0 else entry d.shape d.blocks [k]) * entry v.shape v.blocks [y, k] := by
    intro x y hx hy
    have e1 := hp [] x y .nil hx hy
    have e2 := k3 [x] [y] (.cons hx .nil) (.cons (by rw [hfl]; exact hy) .nil)
    simp only [List.nil_append, List.singleton_append, id, star_trivial] at e1 e2
    rw [e1, e2, ← Finset.sum_sub_distrib]
    refine Finset.sum_congr rfl fun k _ => ?_
    split
    · simp
    · simp
  rw [Finset.sum_congr rfl fun x hx => Finset.sum_congr rfl fun y hy => by
    rw [hterm x y (Finset.mem_range.1 hx) (Finset.mem_range.1 hy)]]
  rw [frobenius _ _ _ (fun x k => entry u.shape u.blocks [x, k]) (fun y k => entry v.shape v.blocks [y, k])
    (fun k => if thr < entry d.shape d.blocks [k] then 0 else entry d.shape d.blocks [k])
    (fun k l hk hl => by simpa using (ho k l hk hl).1) (fun k l hk hl => by simpa using (ho k l hk hl).2)]
  refine Finset.sum_congr rfl fun k _ => ?_
  split <;> simp

/-! ### The hypotheses are met -/

example : ∃ thr u' d' v' sec', truncateSvd (ex40w, ex40, ex40w) 1 1 0 (fun x => x ^ 2) (1 / 4) = .ok (u', d', v') ∧ d'.shape = [sec'] ∧
    vectorValues d'.blocks = (vectorValues ex40.blocks).filter (fun x => decide (thr < x)) := by
  obtain ⟨thr, u', d', v', sec', h1, h2, h3, _⟩ := C68_product id id rfl ex40w ex40w ex40 [[(1, 0), (1, 1)]] [[(1, 0), (1, 1)]]
    [(1, 0), (1, -1)] [(1, 0), (1, -1)] _ rfl rfl rfl rfl rfl ex40w_conserving ex40w_conserving ex40_conserving ex40_descending
    (by simp [ex40, vectorValues]) (by simp [ex40, vectorValues]) 1 1 le_rfl 0 le_rfl (fun x => x ^ 2) (fun x _ => sq_nonneg x) (1 / 4)
  exact ⟨thr, u', d', v', sec', h1, h2, h3⟩

/-- A real SVD as assumed exists (`real_svd_exists`), so the error formula applies to every real tensor of two dimensions, for
example this one of two blocks. -/
example : ∃ fac : Blk ℝ → Blk ℝ × Blk ℝ × Blk ℝ, SvdSizes fac ∧ SvdProduct fac ∧ SvdOrtho fac ∧ SvdDescending fac ∧
    ∃ u d v, svdFull fac (⟨[[(1, 0), (1, 1)], [(2, 0), (1, -1)]], 0, [([0, 0], ⟨[1, 2], fun _ => 3⟩), ([1, 1], ⟨[1, 1], fun _ => 2⟩)]⟩ : BT ℤ ℝ)
      true = .ok (u, d, v) := by
  obtain ⟨fac, h1, h2, h3, h4⟩ := real_svd_exists
  refine ⟨fac, h1, h2, h3, h4, ?_⟩
  obtain ⟨u, d, v, r, e, _⟩ := C68_error_matrix fac h1 h2 h3 h4
    (⟨[[(1, 0), (1, 1)], [(2, 0), (1, -1)]], 0, [([0, 0], ⟨[1, 2], fun _ => 3⟩), ([1, 1], ⟨[1, 1], fun _ => 2⟩)]⟩ : BT ℤ ℝ)
    [(1, 0), (1, 1)] [(2, 0), (1, -1)] rfl ⟨by unfold Sorted; decide, by
      intro k b h
      simp only [List.mem_cons, Prod.mk.injEq, List.not_mem_nil, or_false] at h
      rcases h with ⟨rfl, rfl⟩ | ⟨rfl, rfl⟩
      · exact ⟨[(1, 0), (2, 0)], rfl, rfl, rfl⟩
      · exact ⟨[(1, 1), (1, -1)], rfl, rfl, rfl⟩⟩ (by simp [dimSize]) 1 1 le_rfl 0 le_rfl (fun x => x ^ 2) (fun x _ => sq_nonneg x) 0
  exact ⟨u, d, v, e⟩

end BT
end QuantiT
