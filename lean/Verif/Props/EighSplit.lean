import Verif.Lemmas.SvdSplit
import Verif.Props.EighEx
import Verif.Props.BlockTruncate
import Verif.Model.EighSplit
/-
C122: the eigenvectors of an operator given as a block tensor, between two groups of its dimensions.
-/
namespace QuantiT
namespace BT
open Spec Finset
variable {G R α : Type}

/-- Everything known of the eigenvectors of a matrix. -/
theorem eighFull_all [AddCommGroup G] [LinearOrder G] [Semiring R] [StarRing R] (fac : Blk R → Blk R × Blk R)
    (hfac : EighSizes fac) (hprod : EighProduct fac) (horth : EighOrtho fac) (t : BT G R) (dr dc : Dim G) (hs : t.shape = [dr, dc])
    (hc : Conserving t.shape t.rule t.blocks) (hz : ∀ d ∈ t.shape, 0 < dimSize d)
    (n0 : Nat) (c0 : G) (h0 : dc[0]? = some (n0, c0)) (hrule : chargeAt dc 0 + c0 = 0)
    (hst : ∀ k, Allowed t.shape t.rule k → lookup t.blocks k ≠ none) (hlen : dr.length = dc.length)
    (hdiag : ∀ (i : Nat) (x y : Nat × G), dr[i]? = some x → dc[i]? = some y → x.1 = y.1 ∧ x.2 + y.2 = t.rule)
    (hherm : ∀ x y, x < dimSize dr → y < dimSize dr → entry t.shape t.blocks [x, y] = star (entry t.shape t.blocks [y, x])) :
    ∃ d u r, eighFull fac t = .ok (d, u) ∧
      (u.shape = [dr, r] ∧ u.rule = t.rule ∧ Conserving u.shape u.rule u.blocks) ∧
      (d.shape = neutralised [r] ∧ d.rule = 0 ∧ Conserving d.shape d.rule d.blocks) ∧
      (∀ x y, x < dimSize dr → y < dimSize dr → entry t.shape t.blocks [x, y] = ∑ k ∈ range (dimSize r),
          entry u.shape u.blocks [x, k] * entry d.shape d.blocks [k] * star (entry u.shape u.blocks [y, k])) ∧
      (∀ k k', k < dimSize r → k' < dimSize r →
        ∑ x ∈ range (dimSize dr), star (entry u.shape u.blocks [x, k]) * entry u.shape u.blocks [x, k'] = if k = k' then 1 else 0) ∧
      (t.blocks ≠ [] → r ≠ []) := by
  have hdiag' : ∀ o secs, sections ([] : Shape G) o = some secs → ∀ (i : Nat) (x y : Nat × G), dr[i]? = some x → dc[i]? = some y →
      x.1 = y.1 ∧ charge secs + x.2 + y.2 = t.rule := by
    intro o secs ho i x y hx hy
    have : secs = [] := List.length_eq_zero_iff.1 (by simpa using (sections_length ho).2)
    subst this
    simpa [charge] using hdiag i x y hx hy
  obtain ⟨d, u, r, e1, u1, d1, p⟩ := C67_product_partial fac hfac hprod t [] dr dc hs hc hz n0 c0 h0 hrule hst hlen hdiag' (by
    intro e x y he hx hy
    cases he
    exact hherm x y hx hy)
  obtain ⟨d', u', r', e1', u1', o⟩ := C67_orthonormal_partial fac hfac horth t dr dc hs hc hz n0 c0 h0 hrule hst hlen hdiag hherm
  rw [e1] at e1'
  cases e1'
  obtain ⟨gs, g1, g2, g3, g4⟩ := C41_compact t [] dr dc hs hc
  obtain ⟨mu, md, h1, ⟨mu1, mu2⟩, md1, md2⟩ := eighFull_eq fac t [] dr dc hs hz gs g1 g2 n0 c0 h0 (.inr hrule)
  rw [e1] at h1
  simp only [Except.ok.injEq, Prod.mk.injEq] at h1
  obtain ⟨rfl, rfl⟩ := h1
  simp only [List.nil_append, List.cons.injEq, and_true, true_and] at u1 u1'
  subst u1
  subst u1'
  have hsq : ∀ {n : Nat} {g : Mat R} {secs nr nc p q}, gs[n]? = some g → Collected [] dr dc t.blocks g.m g.other g.rows g.cols secs nr nc p q →
      charge secs + p + q = t.rule → secs = [] ∧ g.m.dims = [matCols g, matCols g] ∧ nr = matCols g ∧ qOf dc g = q := by
    intro n g secs nr nc p q hn hC hch
    have hsecs : secs = [] := List.length_eq_zero_iff.1 (by simpa using (sections_length hC.leads).2)
    obtain ⟨e1, e2⟩ := square_spans hs hst hlen hdiag' hC hch
    obtain ⟨m1, m2⟩ := matRows_eq hC.dims
    refine ⟨hsecs, ?_, ?_, (colCharge_eq (lead := []) (dr := dr) hC.nonempty.2 hC.colCharge).2⟩
    · rw [m2, hC.dims, hsecs, ← e2]; rfl
    · rw [m2, e2]
  refine ⟨_, _, bondE dc gs, e1, ⟨rfl, by simp [hrule], mu1, ?_⟩, ⟨rfl, rfl, md1, ?_⟩, fun x y hx hy => p [] x y .nil hx hy, o, ?_⟩
  · intro k b hkb
    obtain ⟨n, g, hn, s, s1, rfl, rfl⟩ := (mu2 k b).1 (lookup_of_mem mu1 hkb)
    obtain ⟨secs, nr, nc, p, q, hC, hch⟩ := g2 g (List.mem_of_getElem? hn)
    obtain ⟨rfl, q2, rfl, q4⟩ := hsq hn hC hch
    obtain ⟨x, hx⟩ := hC.rowCharge s s1
    obtain ⟨x', hx', t1, t2⟩ := hC.rowTiles.size s s1
    rw [hx] at hx'; cases hx'
    have hb : (bondE dc gs)[n]? = some (matCols g, q) := by simp [bondE, hn, q4]
    refine ⟨_, sections_append hC.leads (sections_cons.2 ⟨_, _, hx, sections_cons.2 ⟨_, [], hb, rfl, rfl⟩, rfl⟩), ?_, ?_⟩
    · rw [charge_append, hrule, ← hch]
      simp [charge, add_assoc]
    · rw [(rowsOf_eq (hfac _ [] _ q2).2 (by omega) t2).1, t1]
      simp
  · intro k b hkb
    obtain ⟨n, g, hn, rfl, rfl⟩ := (md2 k b).1 (lookup_of_mem md1 hkb)
    obtain ⟨secs, nr, nc, p, q, hC, hch⟩ := g2 g (List.mem_of_getElem? hn)
    obtain ⟨rfl, q2, rfl, q4⟩ := hsq hn hC hch
    have hb : (bondE dc gs)[n]? = some (matCols g, q) := by simp [bondE, hn, q4]
    refine ⟨_, sections_mapCharge _ (sections_append hC.leads (sections_cons.2 ⟨_, [], hb, rfl, rfl⟩)), charge_neutral _, ?_⟩
    rw [(hfac _ [] _ q2).1]
    simp
  · intro hb
    obtain ⟨⟨k, b⟩, hkb⟩ := List.exists_mem_of_ne_nil _ hb
    obtain ⟨i, ⟨g, hg, _⟩, _⟩ := g4 k b hkb
    intro h0
    have : gs = [] := by simpa [bondE] using h0
    rw [this] at hg
    simp at hg

/-- The sections of the fused dimension come in the order of the sections of its parts: the first is made of the first ones. -/
theorem fuse_first [AddCommMonoid G] [DecidableEq G] {ds : Shape G} {s0 : List (Nat × G)} (h : sections ds (ds.map fun _ => 0) = some s0) :
    (fuse ds)[0]? = some ((s0.map Prod.fst).prod, charge s0) := by
  have h' := fuse_getElem? h
  have : ∀ l : List Nat, flat l (l.map fun _ => 0) = 0 := by
    intro l
    induction l with
    | nil => rfl
    | cons a l ih => simp only [List.map_cons, flat, ih]; simp
  have h2 := this (secCounts ds)
  rw [show (secCounts ds).map (fun _ => 0) = ds.map fun _ => 0 by simp [secCounts, Function.comp_def]] at h2
  rwa [h2] at h'

theorem sections_first_flip [AddCommGroup G] {ds : Shape G} {s0 : List (Nat × G)} (h : sections ds (ds.map fun _ => 0) = some s0) :
    sections (ds.map flipped) ((ds.map flipped).map fun _ => 0) = some (s0.map fun s => (s.1, -s.2)) := by
  rw [sections_flip, List.map_map]
  have : ds.map ((fun _ => 0) ∘ flipped) = ds.map fun _ => 0 := rfl
  rw [this, h]
  rfl

theorem fuse_first_charge [AddCommGroup G] [DecidableEq G] {ds : Shape G} {s0 : List (Nat × G)} (hs0 : sections ds (ds.map fun _ => 0) = some s0)
    (hpos : ∀ s ∈ s0, 0 < s.1) : chargeAt (fuse (ds.map flipped)) 0 = -charge s0 := by
  have hf0 := fuse_first (sections_first_flip hs0)
  have hprod0 : 0 < (s0.map Prod.fst).prod := by
    apply List.prod_pos
    intro a ha
    obtain ⟨s, s1, rfl⟩ := List.mem_map.1 ha
    exact hpos s s1
  rw [charge_flip, List.map_map] at hf0
  rcases hf : fuse (ds.map flipped) with _ | ⟨a, l⟩
  · rw [hf] at hf0; simp at hf0
  · rw [hf] at hf0
    simp only [List.getElem?_cons_zero, Option.some.injEq] at hf0
    subst hf0
    have : 0 < (s0.map (Prod.fst ∘ fun s : Nat × G => (s.1, -s.2))).prod := hprod0
    unfold chargeAt locate
    rw [if_pos this]
    rfl

/-- The operator as a matrix. -/
theorem eigh_grouped [AddCommGroup G] [LinearOrder G] [Zero R] (t : BT G R) (ds ds2 : Shape G)
    (hs : t.shape = ds ++ ds2) (h1 : ds ≠ []) (h2 : ds2 ≠ []) (hc : Conserving t.shape t.rule t.blocks) (hpop : Populated t.shape) :
    ∃ r, reshape t [ds.length] = .ok r ∧ r.shape = [fuse ds, fuse ds2] ∧ r.rule = t.rule ∧ Conserving r.shape r.rule r.blocks ∧
      (∀ e1 e2 x y, FusedIndex ds e1 x → FusedIndex ds2 e2 y → entry r.shape r.blocks [x, y] = entry t.shape t.blocks (e1 ++ e2)) ∧
      (t.blocks ≠ [] → r.blocks ≠ []) ∧
      ((∀ k, Allowed t.shape t.rule k → lookup t.blocks k ≠ none) → ∀ k, Allowed r.shape r.rule k → lookup r.blocks k ≠ none) := by
  have hcuts : groupCuts [ds, ds2] = [ds.length] := by simp [groupCuts, List.range_succ]
  obtain ⟨q1, q2⟩ := reshape_eq hc (gss := [ds, ds2]) (by simpa using hs) (by simp) (by simp [h1, h2]) hpop
  obtain ⟨r, r1, r2, r3, r4, r5⟩ := C26_reshape_partial t hc hpop [ds, ds2] (by simpa using hs) (by simp) (by simp [h1, h2])
  rw [← groupCuts_eq, r1] at q1
  simp only [Except.ok.injEq] at q1
  rw [hcuts] at r1
  have hp : (secCounts t.shape).prod = (secCounts (([ds, ds2] : List (Shape G)).map fuse)).prod := by
    rw [secCounts_fuse_prod]; simp [hs]
  refine ⟨r, r1, r2, r3, r4, ?_, ?_, ?_⟩
  · intro e1 e2 x y hx hy
    exact r5 (e1 ++ e2) [x, y] ⟨e1, e2, x, [y], rfl, rfl, hx, e2, [], y, [], by simp, rfl, hy, rfl, rfl⟩
  · intro hb h0
    rw [q1] at h0
    have := congrArg List.length h0
    simp [retile, sortKeys] at this
    exact hb this
  · rintro hst k ⟨s', h1, h2⟩
    subst q1
    have hk := sections_inRange h1
    have hk2 := reKey_inRange hp.symm hk
    obtain ⟨s, hsec⟩ := sections_of_inRange hk2
    have hkk := reKey_reKey hp.symm hk
    have := hst (reKey _ t.shape k) ⟨s, hsec, by
      have := (fuse_same [ds, ds2]).2 (reKey (([ds, ds2] : List (Shape G)).map fuse) t.shape k) k s s' (by rw [← hsec, hs]; simp) h1 (by
        have := (reKey_iff hp hk2 hk).1 hkk
        simpa [hs, secCounts] using this)
      rw [this]; exact h2⟩
    have hl := (retile_lookup hc hp).2 _ hk2
    rw [hkk] at hl
    rw [hl]
    cases h : lookup t.blocks (reKey (([ds, ds2] : List (Shape G)).map fuse) t.shape k) with
    | none => exact absurd h this
    | some b => simp

/-- **C122.**  `eigh(tensor, split)` of a hermitian operator: a tensor whose trailing dimensions are its leading ones with opposite charges,
that stores every block its neutral rule allows, and whose first sections together have a charge `q` with `q + q = 0`.  The
eigenvectors have the leading dimensions and one for the eigenvalues, which are without charges; both obey their rules; the eigenvectors are
orthonormal and their product with the eigenvalues is the operator.
Missing: the tensors of `C122_rule_fails`, and those that lack a block (for these see `C67_missing_fails`). -/
theorem C122_eigh_partial [AddCommGroup G] [LinearOrder G] [Semiring R] [StarRing R] (fac : Blk R → Blk R × Blk R)
    (hfac : EighSizes fac) (hprod : EighProduct fac) (horth : EighOrtho fac) (t : BT G R) (ds : Shape G)
    (hs : t.shape = ds ++ ds.map flipped) (h1 : ds ≠ []) (hr : t.rule = 0) (hc : Conserving t.shape t.rule t.blocks)
    (hz : ∀ d ∈ ds, 0 < dimSize d) (hst : ∀ k, Allowed t.shape t.rule k → lookup t.blocks k ≠ none)
    (s0 : List (Nat × G)) (hs0 : sections ds (ds.map fun _ => 0) = some s0) (hpos : ∀ s ∈ s0, 0 < s.1) (hq : charge s0 + charge s0 = 0)
    (hherm : ∀ e e', InRange e (ds.map dimSize) → InRange e' (ds.map dimSize) →
      entry t.shape t.blocks (e ++ e') = star (entry t.shape t.blocks (e' ++ e))) :
    ∃ d u b, eighSplit fac t ds.length = .ok (d, u) ∧
      (u.shape = ds ++ [b] ∧ u.rule = 0 ∧ Conserving u.shape u.rule u.blocks) ∧
      (d.shape = neutralised [b] ∧ d.rule = 0 ∧ Conserving d.shape d.rule d.blocks) ∧
      (∀ e e', InRange e (ds.map dimSize) → InRange e' (ds.map dimSize) →
        entry t.shape t.blocks (e ++ e') = ∑ k ∈ range (dimSize b),
          entry u.shape u.blocks (e ++ [k]) * entry d.shape d.blocks [k] * star (entry u.shape u.blocks (e' ++ [k]))) ∧
      (∀ k k', k < dimSize b → k' < dimSize b →
        ∑ e ∈ configs (ds.map dimSize), star (entry u.shape u.blocks (e ++ [k])) * entry u.shape u.blocks (e ++ [k']) =
          if k = k' then 1 else 0) := by
  have hz2 : ∀ d ∈ ds.map flipped, 0 < dimSize d := by
    intro d hd
    obtain ⟨x, hx, rfl⟩ := List.mem_map.1 hd
    have := hz x hx
    simpa [flipped, dimSize, Function.comp_def] using this
  have hpop1 : Populated ds := fun d hd => by
    rintro rfl
    exact absurd (hz _ hd) (by simp [dimSize])
  have hpop : Populated t.shape := fun d hd => by
    rintro rfl
    rw [hs] at hd
    rcases List.mem_append.1 hd with h | h
    · exact absurd (hz _ h) (by simp [dimSize])
    · exact absurd (hz2 _ h) (by simp [dimSize])
  have hb : t.blocks ≠ [] := by
    intro h0
    refine hst ((ds.map fun _ => 0) ++ ((ds.map flipped).map fun _ => 0)) ⟨s0 ++ s0.map fun s => (s.1, -s.2), ?_, ?_⟩ (by rw [h0]; rfl)
    · rw [hs]; exact sections_append hs0 (sections_first_flip hs0)
    · rw [charge_append, charge_flip, hr]; simp
  obtain ⟨r, r1, r2, r3, r4, r5, r6, r7⟩ := eigh_grouped t ds (ds.map flipped) hs h1 (by simpa using h1) hc hpop
  have hf0 := fuse_first (sections_first_flip hs0)
  have hsz := fuse_pos hz
  have hfix : ∀ x, x < dimSize (fuse ds) → ∃ e, FusedIndex ds e x ∧ InRange e (ds.map dimSize) := by
    intro x hx
    obtain ⟨e, e1, e2, _⟩ := (C26_fused_bijection ds).2 x hx
    exact ⟨e, e1, e2⟩
  have hca := fuse_first_charge hs0 hpos
  obtain ⟨d, ru, b, f1, ⟨u1, u2, u3⟩, hd, fp, fo, fb⟩ := eighFull_all fac hfac hprod horth r _ _ r2 r4 (by
      rw [r2]; simp [hsz, fuse_pos hz2]) _ _ hf0 (by
      rw [hca, charge_flip, ← neg_add, hq, neg_zero]) (r7 hst) (by rw [fuse_flip]; simp [flipped]) (by
      intro i x y hx hy
      rw [fuse_flip] at hy
      simp only [flipped, List.getElem?_map, hx, Option.map_some, Option.some.injEq] at hy
      subst hy
      simp [r3, hr]) (by
      intro x y hx hy
      obtain ⟨e, e1, e2⟩ := hfix x hx
      obtain ⟨e', e1', e2'⟩ := hfix y hy
      rw [r5 e e' x y e1 (fusedIndex_flip e1'), r5 e' e y x e1' (fusedIndex_flip e1)]
      exact hherm e e' e2 e2')
  have hbne : b ≠ [] := fb (r6 hb)
  have hlen : t.shape.length - ds.length = ds.length := by rw [hs]; simp
  have hmin : min ds.length t.shape.length = ds.length := by rw [hs]; simp
  have hsu : ∃ ρ, shapeFrom t (List.replicate (min ds.length t.shape.length) (-1) ++ List.replicate (t.shape.length - ds.length) 0) = .ok ⟨ds, ρ, []⟩ := by
    obtain ⟨p1, p2⟩ := picks_append (picks_replicate_neg ds).1 (picks_replicate_zero hz2).1
    rw [(picks_replicate_neg ds).2, (picks_replicate_zero hz2).2, List.append_nil] at p2
    rw [hlen, hmin]
    rw [List.length_map] at p1 p2
    rw [C31_shape_from_partial t _ (by rw [hs]; exact p1) hpop, hs, p2]
    exact ⟨_, rfl⟩
  have hru : ∃ ρ, shapeFrom ru [0, -1] = .ok ⟨[b], ρ, []⟩ := by
    refine ⟨ru.rule - fixedCharge ru.shape [0, -1], (C31_shape_from_partial ru _ ?_ ?_).trans ?_⟩
    · rw [u1]
      exact .cons (.inr ⟨le_refl _, by omega⟩) (.cons (.inl rfl) .nil)
    · rw [u1]
      intro d hd
      rcases List.mem_cons.1 hd with rfl | hd
      · intro h0; rw [h0] at hsz; simp [dimSize] at hsz
      · rw [List.mem_singleton.1 hd]; exact hbne
    · rw [u1]; rfl
  obtain ⟨ρu, hsu⟩ := hsu
  obtain ⟨ρu', hru⟩ := hru
  have hlu : shapeFromList [(⟨ds, ρu, []⟩ : BT G R), ⟨[b], ρu', []⟩] = .ok ⟨ds ++ [b], ρu + ρu', []⟩ := by
    rw [C32_shape_from_list _ (by simp)]
    simp
  obtain ⟨u, hu1, hu2, hu3, hu4, hu5⟩ := unfuse_eq ru ⟨ds ++ [b], ρu + ρu', []⟩ ds b u1 rfl u3 hpop1 hbne
  refine ⟨d, u, b, ?_, ⟨hu2, by rw [hu3, u2, r3, hr], hu4⟩, hd, ?_, ?_⟩
  · unfold eighSplit
    simp only [r1, f1, hsu, hru, hlu, hu1, bind, Except.bind]
  · intro e e' he he'
    obtain ⟨x, x1, x2, _⟩ := (C26_fused_bijection ds).1 e he
    obtain ⟨y, y1, y2, _⟩ := (C26_fused_bijection ds).1 e' he'
    rw [← r5 e e' x y x1 (fusedIndex_flip y1), fp x y x2 y2]
    refine sum_congr rfl fun k hk => ?_
    rw [hu5 e x k x1 (mem_range.1 hk), hu5 e' y k y1 (mem_range.1 hk)]
  · intro k k' hk hk'
    have o1 := fo k k' hk hk'
    rw [sum_fuse ds _ (fun e => star (entry u.shape u.blocks (e ++ [k])) * entry u.shape u.blocks (e ++ [k']))
      fun e x hx _ => by rw [hu5 e x k hx hk, hu5 e x k' hx hk']] at o1
    exact o1

/-- **C122 fails** for every operator with a stored block whose first sections together have a charge `q` with `q + q ≠ 0`: an exception
escapes. -/
theorem C122_rule_fails [AddCommGroup G] [LinearOrder G] [Zero R] (fac : Blk R → Blk R × Blk R) (t : BT G R) (ds : Shape G)
    (hs : t.shape = ds ++ ds.map flipped) (h1 : ds ≠ []) (hc : Conserving t.shape t.rule t.blocks)
    (hz : ∀ d ∈ ds, 0 < dimSize d) (hb : t.blocks ≠ [])
    (s0 : List (Nat × G)) (hs0 : sections ds (ds.map fun _ => 0) = some s0) (hpos : ∀ s ∈ s0, 0 < s.1) (hq : charge s0 + charge s0 ≠ 0) :
    eighSplit fac t ds.length = .error (.throw .invalidArgument) := by
  have hz2 : ∀ d ∈ ds.map flipped, 0 < dimSize d := by
    intro d hd
    obtain ⟨x, hx, rfl⟩ := List.mem_map.1 hd
    have := hz x hx
    simpa [flipped, dimSize, Function.comp_def] using this
  have hpop : Populated t.shape := fun d hd => by
    rintro rfl
    rw [hs] at hd
    rcases List.mem_append.1 hd with h | h
    · exact absurd (hz _ h) (by simp [dimSize])
    · exact absurd (hz2 _ h) (by simp [dimSize])
  obtain ⟨r, r1, r2, r3, r4, r5, r6, r7⟩ := eigh_grouped t ds (ds.map flipped) hs h1 (by simpa using h1) hc hpop
  have hf0 := fuse_first (sections_first_flip hs0)
  have hca := fuse_first_charge hs0 hpos
  have := C43_rule_fails fac r [] _ _ r2 r4 (by rw [r2]; simp [fuse_pos hz, fuse_pos hz2]) _ _ hf0 (r6 hb) (by
    rw [hca, charge_flip, ← neg_add, ne_eq, neg_eq_zero]; exact hq)
  unfold eighSplit
  simp only [r1, this, bind, Except.bind]

/-- **C122 fails** with a tolerance or limits on the number of eigenvalues: the call never returns a decomposition. -/
theorem C122_truncated_fails [AddCommGroup G] [LinearOrder G] [Field α] [LinearOrder α] (fac : Blk α → Blk α × Blk α) (eps : α) (t : BT G α)
    (split : Nat) (tol : α) (minS maxS : Nat) (pw : α → α) (x : BT G α × BT G α) :
    eighCutB fac eps t split tol minS maxS pw ≠ .ok x ∧ eighTolB fac eps t split tol pw ≠ .ok x := by
  have key : ∀ minS maxS, eighCutB fac eps t split tol minS maxS pw ≠ .ok x := by
    intro minS maxS h
    unfold eighCutB at h
    cases he : eighSplit fac t split with
    | error e => simp [he, bind, Except.bind] at h
    | ok eS =>
      simp only [he, bind, Except.bind] at h
      rw [show truncateEigh eS maxS minS tol pw eps = Res.throw .outOfRange from C40_eigh_fails _ _ _ _ _ _ _] at h
      cases h
  exact ⟨key minS maxS, key 1 _⟩

end BT
end QuantiT
