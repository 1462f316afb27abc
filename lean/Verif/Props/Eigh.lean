import Verif.Props.Svd
/-
C43, C67: eigenvalues and eigenvectors of block tensors.
-/
namespace QuantiT
namespace BT
open Spec Finset
variable {G R : Type}

/-- The sections of the new bond of `eigh`. -/
def bondE [Zero G] (dc : Dim G) (gs : List (Mat R)) : Dim G := gs.map fun g => (matCols g, qOf dc g)

/-- `eigh` up to the assignment of the blocks. -/
theorem eighFull_prep [AddCommGroup G] [LinearOrder G] [Zero R] (fac : Blk R → Blk R × Blk R) (t : BT G R) (lead : Shape G)
    (dr dc : Dim G) (hs : t.shape = lead ++ [dr, dc]) (hz : ∀ d ∈ t.shape, 0 < dimSize d)
    (gs : List (Mat R)) (hgs : compactDense t = .ok gs)
    (hcol : ∀ g ∈ gs, ∃ secs nr nc p q, Collected lead dr dc t.blocks g.m g.other g.rows g.cols secs nr nc p q ∧
        charge secs + p + q = t.rule) (n0 : Nat) (c0 : G) (h0 : dc[0]? = some (n0, c0)) :
    eighFull fac t = (do
      let u ← assignAll (⟨lead ++ [dr, bondE dc gs], t.rule - (chargeAt dc 0 + c0), []⟩ : BT G R)
        (factorBlocks (gs.map fun g => (g, (fac g.m).2)) Mat.rows)
      let d ← assignAll (⟨neutralised (lead ++ [bondE dc gs]), 0, []⟩ : BT G R) (diagBlocks (gs.map fun g => (g, (fac g.m).1)))
      .ok (d, u)) := by
  have hq : gs.mapM (colCharge t.shape) = .ok (gs.map (qOf dc)) := by
    refine mapM_ok fun g hg => ?_
    obtain ⟨_, _, _, _, _, h, _⟩ := hcol g hg
    rw [hs]
    exact (colCharge_eq h.nonempty.2 h.colCharge).1
  have hright : ((gs.zip (gs.map (qOf dc))).map fun p => (matCols p.1, p.2)) = bondE dc gs := by
    unfold bondE
    rw [← List.map_prod_left_eq_zip, List.map_map]
    rfl
  have hzr : 0 < dimSize dr := hz dr (by simp [hs])
  have hzc : 0 < dimSize dc := hz dc (by simp [hs])
  have hpop := populated_of_pos hz
  have hn : t.shape.length = lead.length + 2 := by simp [hs]
  have hr0 : Picks [dr] [0] := .cons (.inr ⟨le_refl _, by omega⟩) .nil
  have hc0 : Picks [dc] [0] := .cons (.inr ⟨le_refl _, by omega⟩) .nil
  have p0 : Picks t.shape (List.replicate (t.shape.length - 2) (-1) ++ [0, 0]) ∧
      kept t.shape (List.replicate (t.shape.length - 2) (-1) ++ [0, 0]) = lead := by
    rw [hn, hs]
    obtain ⟨h1, h2⟩ := picks_append (picks_replicate_neg lead).1 (List.rel_append hr0 hc0)
    refine ⟨h1, h2.trans ?_⟩
    rw [(picks_replicate_neg lead).2]
    simp [kept]
  have hfix : ∀ (l : Shape G), fixedCharge (l ++ [dc]) (List.replicate l.length (-1) ++ [0]) = chargeAt dc 0 := by
    intro l
    induction l with
    | nil => simp [fixedCharge]
    | cons d l ih => simp [fixedCharge, List.replicate_succ, ih]
  have p1 : Picks t.shape (List.replicate (t.shape.length - 1) (-1) ++ [0]) ∧
      kept t.shape (List.replicate (t.shape.length - 1) (-1) ++ [0]) = lead ++ [dr] ∧
      fixedCharge t.shape (List.replicate (t.shape.length - 1) (-1) ++ [0]) = chargeAt dc 0 := by
    rw [hn, hs]
    obtain ⟨h1, h2⟩ := picks_append (picks_replicate_neg (lead ++ [dr])).1 hc0
    rw [(picks_replicate_neg (lead ++ [dr])).2] at h2
    have h3 := hfix (lead ++ [dr])
    simp only [List.append_assoc, List.cons_append, List.nil_append, List.length_append, List.length_cons, List.length_nil] at h1 h2 h3
    exact ⟨h1, h2.trans (by simp [kept]), h3⟩
  have hlast : t.shape[t.shape.length - 1]? = some dc := by simp [hs]
  unfold eighFull
  simp only [hgs, hq, bind, Except.bind, hright, shapeFrom_eq p0.1 hpop, shapeFrom_eq p1.1 hpop, p0.2, p1.2.1, p1.2.2, hlast, h0]
  rw [C32_shape_from_list _ (by simp)]
  simp only [neutralShape, shiftRule, List.length_nil, ne_eq, not_true_eq_false, if_false, List.map_cons, List.map_nil, List.flatten_cons,
    List.flatten_nil, List.append_nil, List.sum_cons, List.sum_nil, add_zero]
  rw [C32_shape_from_list _ (by simp)]
  simp only [List.map_cons, List.map_nil, List.flatten_cons,
    List.flatten_nil, List.append_nil, List.map_map, Function.comp_def, List.append_assoc, List.cons_append, List.nil_append,
    List.sum_cons, List.sum_nil, add_zero]
  have : t.rule - chargeAt dc 0 + -c0 = t.rule - (chargeAt dc 0 + c0) := by abel
  rw [this]
  rfl

/-- `eigh(tensor)` block by block. -/
theorem eighFull_eq [AddCommGroup G] [LinearOrder G] [Zero R] (fac : Blk R → Blk R × Blk R) (t : BT G R) (lead : Shape G)
    (dr dc : Dim G) (hs : t.shape = lead ++ [dr, dc]) (hz : ∀ d ∈ t.shape, 0 < dimSize d)
    (gs : List (Mat R)) (hgs : compactDense t = .ok gs)
    (hcol : ∀ g ∈ gs, ∃ secs nr nc p q, Collected lead dr dc t.blocks g.m g.other g.rows g.cols secs nr nc p q ∧
        charge secs + p + q = t.rule) (n0 : Nat) (c0 : G) (h0 : dc[0]? = some (n0, c0))
    (hrule : gs = [] ∨ chargeAt dc 0 + c0 = 0) :
    ∃ mu md, eighFull fac t = .ok (⟨neutralised (lead ++ [bondE dc gs]), 0, md⟩,
        ⟨lead ++ [dr, bondE dc gs], t.rule - (chargeAt dc 0 + c0), mu⟩) ∧
      (Sorted mu ∧ ∀ k b, lookup mu k = some b ↔
        ∃ n g, gs[n]? = some g ∧ ∃ s ∈ g.rows, k = g.other ++ [s.1, n] ∧ b = rowsOf (fac g.m).2 s.2) ∧
      (Sorted md ∧ ∀ k b, lookup md k = some b ↔ ∃ n g, gs[n]? = some g ∧ k = g.other ++ [n] ∧ b = (fac g.m).1) := by
  have hbond : ∀ {n : Nat} {g : Mat R}, gs[n]? = some g → ∃ m, (bondE dc gs)[n]? = some (m, qOf dc g) := by
    intro n g h
    exact ⟨matCols g, by simp [bondE, h]⟩
  have hsec2 : ∀ {a b : Dim G} {i j x y}, a[i]? = some x → b[j]? = some y → sections [a, b] [i, j] = some [x, y] := by
    intro a b i j x y h1 h2
    exact sections_cons.2 ⟨x, [y], h1, sections_cons.2 ⟨y, [], h2, rfl, rfl⟩, rfl⟩
  obtain ⟨mu, u1, u2, u3⟩ := assignTwice (lead ++ [dr, bondE dc gs]) (t.rule - (chargeAt dc 0 + c0))
    (factorVals (gs.map fun g => (g, (fac g.m).2)) Mat.rows)
    (factorVals_functional fun g hg => by obtain ⟨_, nr, _, _, _, h, _⟩ := hcol g hg; exact ⟨nr, h.rowTiles⟩) (by
      rintro ⟨k, b⟩ hkv
      obtain ⟨n, g, h1, s, s1, rfl, _⟩ := mem_factorVals.1 hkv
      obtain ⟨secs, nr, nc, p, q, h, hch⟩ := hcol g (List.mem_of_getElem? h1)
      obtain ⟨x, hx⟩ := h.rowCharge s s1
      obtain ⟨y, hy⟩ := hbond h1
      refine ⟨_, sections_append h.leads (hsec2 hx hy), ?_⟩
      rcases hrule with hr | hr
      · rw [hr] at h1
        simp at h1
      · rw [charge_append, hr, ← hch, (colCharge_eq (lead := lead) (dr := dr) h.nonempty.2 h.colCharge).2]
        simp [charge, add_assoc])
  obtain ⟨md, d1, d2, d3⟩ := assignTwice (neutralised (lead ++ [bondE dc gs])) 0
    (diagVals (gs.map fun g => (g, (fac g.m).1))) diagVals_functional (by
      rintro ⟨k, b⟩ hkv
      obtain ⟨n, g, h1, rfl, _⟩ := mem_diagVals.1 hkv
      obtain ⟨secs, nr, nc, p, q, h, hch⟩ := hcol g (List.mem_of_getElem? h1)
      obtain ⟨y, hy⟩ := hbond h1
      exact ⟨_, sections_mapCharge _ (sections_append h.leads (sections_cons.2 ⟨_, [], hy, rfl, rfl⟩)), charge_neutral _⟩)
  refine ⟨mu, md, ?_, ⟨u2, fun k b => (u3 k b).trans mem_factorVals⟩, ⟨d2, fun k b => (d3 k b).trans mem_diagVals⟩⟩
  rw [eighFull_prep fac t lead dr dc hs hz gs hgs hcol n0 c0 h0, factorBlocks_eq, diagBlocks_eq, u1, d1]
  rfl

/-- **C43.**  For a conserving tensor with at least two dimensions, none of them of size zero, whose last dimension starts with
a section such that its charge, added to the charge of the first element of that dimension, is neutral (or that has no block),
`eigh` raises no exception; the eigenvalues have the neutral rule and the eigenvectors the rule of the tensor; both obey their rule.
Not covered: every other tensor with a stored block (`C43_rule_fails`). -/
theorem C43_eigh_partial [AddCommGroup G] [LinearOrder G] [Zero R] (fac : Blk R → Blk R × Blk R) (t : BT G R) (lead : Shape G)
    (dr dc : Dim G) (hs : t.shape = lead ++ [dr, dc]) (hc : Conserving t.shape t.rule t.blocks) (hz : ∀ d ∈ t.shape, 0 < dimSize d)
    (n0 : Nat) (c0 : G) (h0 : dc[0]? = some (n0, c0)) (hrule : t.blocks = [] ∨ chargeAt dc 0 + c0 = 0) :
    ∃ d u r, eighFull fac t = .ok (d, u) ∧ u.shape = lead ++ [dr, r] ∧ d.shape = neutralised (lead ++ [r]) ∧ d.rule = 0 ∧
      (t.blocks ≠ [] → u.rule = t.rule) ∧ Sorted u.blocks ∧ Sorted d.blocks ∧
      (∀ k b, (k, b) ∈ u.blocks → Allowed u.shape u.rule k) ∧ (∀ k b, (k, b) ∈ d.blocks → Allowed d.shape d.rule k) := by
  obtain ⟨gs, g1, g2, g3, g4⟩ := C41_compact t lead dr dc hs hc
  have hgs : t.blocks = [] → gs = [] := by
    intro h
    rcases gs with _ | ⟨g, gs⟩
    · rfl
    · obtain ⟨_, _, _, _, _, hC, _⟩ := g2 g (by simp)
      obtain ⟨s, hs⟩ := List.exists_mem_of_ne_nil _ hC.nonempty.1
      obtain ⟨s', _, h'⟩ := hC.usedRow s hs
      rw [h] at h'
      exact absurd (lookup_nil _) h'
  obtain ⟨mu, md, h1, ⟨u1, u2⟩, d1, d2⟩ := eighFull_eq fac t lead dr dc hs hz gs g1 g2 n0 c0 h0 (hrule.imp_left hgs)
  have hsec2 : ∀ {a b : Dim G} {i j x y}, a[i]? = some x → b[j]? = some y → sections [a, b] [i, j] = some [x, y] := by
    intro a b i j x y h1 h2
    exact sections_cons.2 ⟨x, [y], h1, sections_cons.2 ⟨y, [], h2, rfl, rfl⟩, rfl⟩
  refine ⟨_, _, bondE dc gs, h1, rfl, rfl, rfl, ?_, u1, d1, ?_, ?_⟩
  · intro h
    simp [hrule.resolve_left h]
  · intro k b hkb
    obtain ⟨n, g, hn, s, s1, rfl, rfl⟩ := (u2 k b).1 (lookup_of_mem u1 hkb)
    obtain ⟨secs, nr, nc, p, q, hC, hch⟩ := g2 g (List.mem_of_getElem? hn)
    obtain ⟨x, hx⟩ := hC.rowCharge s s1
    have hb : (bondE dc gs)[n]? = some (matCols g, qOf dc g) := by simp [bondE, hn]
    refine ⟨_, sections_append hC.leads (hsec2 hx hb), ?_⟩
    rcases hrule with hr | hr
    · rw [hgs hr] at hn
      simp at hn
    · rw [charge_append, hr, ← hch, (colCharge_eq (lead := lead) (dr := dr) hC.nonempty.2 hC.colCharge).2]
      simp [charge, add_assoc]
  · intro k b hkb
    obtain ⟨n, g, hn, rfl, rfl⟩ := (d2 k b).1 (lookup_of_mem d1 hkb)
    obtain ⟨secs, nr, nc, p, q, hC, hch⟩ := g2 g (List.mem_of_getElem? hn)
    have hb : (bondE dc gs)[n]? = some (matCols g, qOf dc g) := by simp [bondE, hn]
    exact ⟨_, sections_mapCharge _ (sections_append hC.leads (sections_cons.2 ⟨_, [], hb, rfl, rfl⟩)), charge_neutral _⟩

/-- **C43 fails** for every conserving tensor with a stored block unless the charge of the first section of the last dimension
and the charge of the first element of that dimension (usually the same) add up to the neutral charge: an exception escapes. -/
theorem C43_rule_fails [AddCommGroup G] [LinearOrder G] [Zero R] (fac : Blk R → Blk R × Blk R) (t : BT G R) (lead : Shape G)
    (dr dc : Dim G) (hs : t.shape = lead ++ [dr, dc]) (hc : Conserving t.shape t.rule t.blocks) (hz : ∀ d ∈ t.shape, 0 < dimSize d)
    (n0 : Nat) (c0 : G) (h0 : dc[0]? = some (n0, c0)) (hb : t.blocks ≠ []) (hrule : chargeAt dc 0 + c0 ≠ 0) :
    eighFull fac t = .error (.throw .invalidArgument) := by
  obtain ⟨gs, g1, g2, g3, g4⟩ := C41_compact t lead dr dc hs hc
  rw [eighFull_prep fac t lead dr dc hs hz gs g1 g2 n0 c0 h0]
  rcases gs with _ | ⟨g, gs⟩
  · obtain ⟨⟨k, b⟩, hkb⟩ := List.exists_mem_of_ne_nil _ hb
    obtain ⟨i, ⟨g, hg, _⟩, _⟩ := g4 k b hkb
    simp at hg
  · obtain ⟨secs, nr, nc, p, q, hC, hch⟩ := g2 g (by simp)
    obtain ⟨s, rows, hr⟩ := List.exists_cons_of_ne_nil hC.nonempty.1
    obtain ⟨x, hx⟩ := hC.rowCharge s (by simp [hr])
    have hsec : sections (lead ++ [dr, bondE dc (g :: gs)]) (g.other ++ [s.1, 0]) = some (secs ++ [(x, p), (matCols g, q)]) := by
      refine sections_append hC.leads (sections_cons.2 ⟨_, _, hx, sections_cons.2 ⟨(matCols g, q), [], ?_, rfl, rfl⟩, rfl⟩)
      simp [bondE, (colCharge_eq (lead := lead) (dr := dr) hC.nonempty.2 hC.colCharge).2]
    have hbad : ¬ charge (secs ++ [(x, p), (matCols g, q)]) = t.rule - (chargeAt dc 0 + c0) := by
      rw [charge_append]
      have : charge secs + charge [(x, p), (matCols g, q)] = t.rule := by
        rw [← hch]
        simp [charge, add_assoc]
      rw [this]
      intro h
      exact hrule (by rw [eq_sub_iff_add_eq] at h; simpa using h)
    have hfirst : ∀ v, blockAssign (⟨lead ++ [dr, bondE dc (g :: gs)], t.rule - (chargeAt dc 0 + c0), []⟩ : BT G R) (g.other ++ [s.1, 0]) v =
        .error (.throw .invalidArgument) := by
      intro v
      unfold blockAssign
      rw [conserves_eq hsec]
      simp [bind, Except.bind, hbad, Res.throw]
    have : ∃ v l, factorBlocks ((g :: gs).map fun g => (g, (fac g.m).2)) Mat.rows = (g.other ++ [s.1, 0], v) :: l := by
      refine ⟨undef, ?_⟩
      unfold factorBlocks
      simp [List.range_succ_eq_map, hr]
    obtain ⟨v, l, hl⟩ := this
    rw [hl]
    unfold assignAll
    rw [List.foldlM_cons, hfirst]
    rfl

/-! ### Hermitian tensors -/

/-- Ranges stacked in order from `a` on. -/
theorem stack_unique {d d' : Dim G} : ∀ (l l' : List Span) (a n n' : Nat), InOrder l → InOrder l' →
    l.map Prod.fst = l'.map Prod.fst → (∀ s ∈ l, a ≤ s.2.1) → (∀ s ∈ l', a ≤ s.2.1) →
    (∀ s ∈ l, ∃ x, d[s.1]? = some x ∧ s.2.2 = s.2.1 + x.1 ∧ s.2.2 ≤ n) → (∀ s ∈ l', ∃ x, d'[s.1]? = some x ∧ s.2.2 = s.2.1 + x.1 ∧ s.2.2 ≤ n') →
    (∀ p, a ≤ p → p < n → ∃ s ∈ l, s.2.1 ≤ p ∧ p < s.2.2) → (∀ p, a ≤ p → p < n' → ∃ s ∈ l', s.2.1 ≤ p ∧ p < s.2.2) →
    (∀ s ∈ l, ∀ x y : Nat × G, d[s.1]? = some x → d'[s.1]? = some y → x.1 = y.1) → l = l'
  | [], [], _, _, _, _, _, _, _, _, _, _, _, _, _ => rfl
  | [], _ :: _, _, _, _, _, _, h, _, _, _, _, _, _, _ => by simp at h
  | _ :: _, [], _, _, _, _, _, h, _, _, _, _, _, _, _ => by simp at h
  | s :: l, s' :: l', a, n, n', o, o', h, b, b', z, z', c, c', hx => by
    simp only [List.map_cons, List.cons.injEq] at h
    obtain ⟨h1, h2⟩ := h
    obtain ⟨o1, o2⟩ := List.pairwise_cons.1 o
    obtain ⟨o1', o2'⟩ := List.pairwise_cons.1 o'
    have start : ∀ {s : Span} {l : List Span} {n : Nat} {d : Dim G}, (∀ t ∈ l, s.1 < t.1 ∧ s.2.2 ≤ t.2.1) → (∀ t ∈ s :: l, a ≤ t.2.1) →
        (∀ t ∈ s :: l, ∃ x, d[t.1]? = some x ∧ t.2.2 = t.2.1 + x.1 ∧ t.2.2 ≤ n) →
        (∀ p, a ≤ p → p < n → ∃ t ∈ s :: l, t.2.1 ≤ p ∧ p < t.2.2) → s.2.1 = a := by
      intro s l n d o b z c
      have h0 := b s (by simp)
      obtain ⟨x, _, z1, z2⟩ := z s (by simp)
      by_cases han : a < n
      · obtain ⟨t, t1, t2, t3⟩ := c a (le_refl _) han
        rcases List.mem_cons.1 t1 with rfl | t1
        · omega
        · have := (o t t1).2
          omega
      · omega
    have e1 := start o1 b z c
    have e1' := start o1' b' z' c'
    obtain ⟨x, x1, x2, x3⟩ := z s (by simp)
    obtain ⟨y, y1, y2, y3⟩ := z' s' (by simp)
    have hxy := hx s (by simp) x y x1 (by rw [h1]; exact y1)
    have hs : s = s' := Prod.ext h1 (Prod.ext (by omega) (by omega))
    subst hs
    have rest : ∀ {l : List Span} {n : Nat}, (∀ p, a ≤ p → p < n → ∃ t ∈ s :: l, t.2.1 ≤ p ∧ p < t.2.2) →
        ∀ p, s.2.2 ≤ p → p < n → ∃ t ∈ l, t.2.1 ≤ p ∧ p < t.2.2 := by
      intro l n c p hp1 hp2
      obtain ⟨t, t1, t2, t3⟩ := c p (by omega) hp2
      rcases List.mem_cons.1 t1 with rfl | t1
      · omega
      · exact ⟨t, t1, t2, t3⟩
    rw [stack_unique l l' s.2.2 n n' o2 o2' h2 (fun t ht => (o1 t ht).2) (fun t ht => (o1' t ht).2)
      (fun t ht => z t (by simp [ht])) (fun t ht => z' t (by simp [ht])) (rest c) (rest c') (fun t ht => hx t (by simp [ht]))]

/-- The rows and the columns of a matrix are the same ranges if no block is missing and the diagonal blocks are square and obey
the rule. -/
theorem square_spans [AddCommGroup G] [LinearOrder G] [Zero R] {t : BT G R} {lead : Shape G} {dr dc : Dim G}
    (hs : t.shape = lead ++ [dr, dc]) (hst : ∀ k, Allowed t.shape t.rule k → lookup t.blocks k ≠ none) (hlen : dr.length = dc.length)
    (hdiag : ∀ o secs, sections lead o = some secs → ∀ (i : Nat) (x y : Nat × G), dr[i]? = some x → dc[i]? = some y →
      x.1 = y.1 ∧ charge secs + x.2 + y.2 = t.rule)
    {g : Mat R} {secs nr nc p q} (hC : Collected lead dr dc t.blocks g.m g.other g.rows g.cols secs nr nc p q)
    (hch : charge secs + p + q = t.rule) : g.rows = g.cols ∧ nr = nc := by
  have hallowed : ∀ i j n n', dr[i]? = some (n, p) → dc[j]? = some (n', q) → Allowed t.shape t.rule (g.other ++ [i, j]) := by
    intro i j n n' hi hj
    rw [hs]
    refine ⟨_, sections_append hC.leads (sections_cons.2 ⟨_, _, hi, sections_cons.2 ⟨_, [], hj, rfl, rfl⟩, rfl⟩), ?_⟩
    rw [charge_append, ← hch]
    simp [charge, add_assoc]
  have hholds : ∀ i j n n', dr[i]? = some (n, p) → dc[j]? = some (n', q) → Holds g.other g.rows g.cols (g.other ++ [i, j]) := by
    intro i j n n' hi hj
    rcases hl : lookup t.blocks (g.other ++ [i, j]) with _ | b
    · exact absurd hl (hst _ (hallowed i j n n' hi hj))
    · exact hC.full i j b n n' (mem_of_lookup hl) hi hj
  obtain ⟨r0, hr0⟩ := List.exists_mem_of_ne_nil _ hC.nonempty.1
  obtain ⟨c0, hc0⟩ := List.exists_mem_of_ne_nil _ hC.nonempty.2
  obtain ⟨rn, hrn⟩ := hC.rowCharge r0 hr0
  obtain ⟨cn, hcn⟩ := hC.colCharge c0 hc0
  have hrows : ∀ i, i ∈ g.rows.map Prod.fst ↔ ∃ n, dr[i]? = some (n, p) := by
    intro i
    constructor
    · intro h
      obtain ⟨s, h1, rfl⟩ := List.mem_map.1 h
      exact hC.rowCharge s h1
    · rintro ⟨n, hn⟩
      obtain ⟨s, h1, s', _, h3⟩ := hholds i c0.1 n cn hn hcn
      obtain ⟨_, rfl, _⟩ := last_inj h3
      exact List.mem_map.2 ⟨s, h1, rfl⟩
  have hcols : ∀ j, j ∈ g.cols.map Prod.fst ↔ ∃ n, dc[j]? = some (n, q) := by
    intro j
    constructor
    · intro h
      obtain ⟨s, h1, rfl⟩ := List.mem_map.1 h
      exact hC.colCharge s h1
    · rintro ⟨n, hn⟩
      obtain ⟨s, _, s', h2, h3⟩ := hholds r0.1 j rn n hrn hn
      obtain ⟨_, _, rfl⟩ := last_inj h3
      exact List.mem_map.2 ⟨s', h2, rfl⟩
  have hsame : ∀ i, i ∈ g.rows.map Prod.fst ↔ i ∈ g.cols.map Prod.fst := by
    intro i
    rw [hrows, hcols]
    constructor
    · rintro ⟨n, hn⟩
      have hi : i < dc.length := by rw [← hlen]; exact (List.getElem?_eq_some_iff.1 hn).1
      obtain ⟨e1, e2⟩ := hdiag _ _ hC.leads i (n, p) dc[i] hn (List.getElem?_eq_getElem hi)
      refine ⟨dc[i].1, ?_⟩
      rw [List.getElem?_eq_getElem hi]
      rw [← hch] at e2
      have := add_left_cancel e2
      rw [← this]
    · rintro ⟨n, hn⟩
      have hi : i < dr.length := by rw [hlen]; exact (List.getElem?_eq_some_iff.1 hn).1
      obtain ⟨e1, e2⟩ := hdiag _ _ hC.leads i dr[i] (n, q) (List.getElem?_eq_getElem hi) hn
      refine ⟨dr[i].1, ?_⟩
      rw [List.getElem?_eq_getElem hi]
      rw [← hch] at e2
      have := add_left_cancel (add_right_cancel e2)
      rw [← this]
  have hco := hC.colOrder (by
    intro s h1 s' h2
    obtain ⟨n, hn⟩ := hC.rowCharge s h1
    obtain ⟨n', hn'⟩ := hC.colCharge s' h2
    exact hst _ (hallowed _ _ n n' hn hn'))
  have hsec : g.rows.map Prod.fst = g.cols.map Prod.fst :=
    List.Pairwise.eq_of_mem_iff (r := (· < ·)) (List.pairwise_map.2 (hC.rowOrder.imp fun h => h.1))
      (List.pairwise_map.2 (hco.imp fun h => h.1)) hsame
  have hrc : g.rows = g.cols := stack_unique (d := dr) (d' := dc) g.rows g.cols 0 nr nc hC.rowOrder hco hsec (fun _ _ => Nat.zero_le _)
    (fun _ _ => Nat.zero_le _) hC.rowTiles.size hC.colTiles.size (fun p _ h => hC.rowTiles.cover p h) (fun p _ h => hC.colTiles.cover p h)
    (fun s h1 x y hx hy => (hdiag _ _ hC.leads s.1 x y hx hy).1)
  refine ⟨hrc, ?_⟩
  rcases Nat.lt_trichotomy nr nc with h | h | h
  · obtain ⟨s, s1, s2, s3⟩ := hC.colTiles.cover nr h
    rw [← hrc] at s1
    obtain ⟨_, _, _, h3⟩ := hC.rowTiles.size s s1
    omega
  · exact h
  · obtain ⟨s, s1, s2, s3⟩ := hC.rowTiles.cover nc h
    rw [hrc] at s1
    obtain ⟨_, _, _, h3⟩ := hC.colTiles.size s s1
    omega

/-- Sections of equal sizes put the elements at the same places. -/
theorem locate_same : ∀ {d d' : Dim G}, d.length = d'.length → (∀ (i : Nat) (x y : Nat × G), d[i]? = some x → d'[i]? = some y → x.1 = y.1) →
    ∀ e, locate d e = locate d' e
  | [], [], _, _, _ => rfl
  | [], _ :: _, h, _, _ => by simp at h
  | _ :: _, [], h, _, _ => by simp at h
  | s :: d, s' :: d', h, hx, e => by
    have h0 := hx 0 s s' (by simp) (by simp)
    simp only [locate, h0, locate_same (d := d) (d' := d') (by simpa using h) (fun i x y h1 h2 => hx (i + 1) x y (by simpa using h1) (by simpa using h2))]

theorem dimSize_same : ∀ {d d' : Dim G}, d.length = d'.length → (∀ (i : Nat) (x y : Nat × G), d[i]? = some x → d'[i]? = some y → x.1 = y.1) →
    dimSize d = dimSize d'
  | [], [], _, _ => rfl
  | [], _ :: _, h, _ => by simp at h
  | _ :: _, [], h, _ => by simp at h
  | s :: d, s' :: d', h, hx => by
    have h0 := hx 0 s s' (by simp) (by simp)
    have := dimSize_same (d := d) (d' := d') (by simpa using h) (fun i x y h1 h2 => hx (i + 1) x y (by simpa using h1) (by simpa using h2))
    simp only [dimSize, List.map_cons, List.sum_cons] at this ⊢
    omega

theorem locateAll_exists : ∀ {sh : Shape G} {b : List Nat} {secs : List (Nat × G)} {o : List Nat}, sections sh b = some secs →
    InRange o (secs.map Prod.fst) → ∃ e, locateAll sh e = some (b, o)
  | [], [], secs, o, h, ho => by
    simp only [sections, Option.some.injEq] at h
    subst h
    cases ho
    exact ⟨[], rfl⟩
  | [], _ :: _, _, _, h, _ => by simp [sections] at h
  | _ :: _, [], _, _, h, _ => by simp [sections] at h
  | d :: sh, i :: b, secs, o, h, ho => by
    obtain ⟨x, r, h1, h2, rfl⟩ := sections_cons.1 h
    cases ho with
    | @cons y _ o' _ hy ho' =>
      obtain ⟨e, he⟩ := locateAll_exists h2 ho'
      exact ⟨(dimSize (d.take i) + y) :: e, locateAll_cons.2 ⟨i, y, b, o', locate_iff.2 ⟨x, h1, hy, rfl⟩, he, rfl⟩⟩

/-- A matrix of a hermitian tensor is hermitian if its rows and columns are the same. -/
theorem hermitian_mat [AddCommGroup G] [LinearOrder G] [Semiring R] [StarRing R] {t : BT G R} {lead : Shape G} {dr dc : Dim G}
    (hs : t.shape = lead ++ [dr, dc]) (hloc : ∀ e, locate dr e = locate dc e)
    (hherm : ∀ e x y, InRange e (lead.map dimSize) → x < dimSize dr → y < dimSize dr →
      entry t.shape t.blocks (e ++ [x, y]) = star (entry t.shape t.blocks (e ++ [y, x])))
    {g : Mat R} {secs nr nc p q} (hC : Collected lead dr dc t.blocks g.m g.other g.rows g.cols secs nr nc p q) (hrc : g.rows = g.cols)
    (hn : nr = nc) : HermitianBlk g.m (secs.map Prod.fst) nr := by
  subst hn
  intro eo r c he hr hc
  obtain ⟨s, s1, s2, s3⟩ := hC.rowTiles.cover r hr
  obtain ⟨s', s1', s2', s3'⟩ := hC.rowTiles.cover c hc
  rw [hC.value eo he s s1 s' (hrc ▸ s1') r c s2 s3 s2' s3', hC.value eo he s' s1' s (hrc ▸ s1) c r s2' s3' s2 s3]
  obtain ⟨x, x1, x2, x3⟩ := hC.rowTiles.size s s1
  obtain ⟨y, y1, y2, y3⟩ := hC.rowTiles.size s' s1'
  obtain ⟨e, hle⟩ := locateAll_exists hC.leads he
  have hlx : locate dr (dimSize (dr.take s.1) + (r - s.2.1)) = some (s.1, r - s.2.1) := locate_iff.2 ⟨x, x1, by omega, rfl⟩
  have hly : locate dr (dimSize (dr.take s'.1) + (c - s'.2.1)) = some (s'.1, c - s'.2.1) := locate_iff.2 ⟨y, y1, by omega, rfl⟩
  have := hherm e _ _ (locateAll_isSome.1 ⟨_, hle⟩) (locate_isSome.1 ⟨_, hlx⟩) (locate_isSome.1 ⟨_, hly⟩)
  rw [hs, entry_pair t.blocks hle hlx (by rw [← hloc]; exact hly), entry_pair t.blocks hle hly (by rw [← hloc]; exact hlx)] at this
  exact this

/-- **C67.**  For a hermitian conserving tensor with at least two dimensions, none of them of size zero, whose diagonal blocks
are square and obey the rule, all of whose allowed blocks are stored, and with the charge condition of `C43_eigh_partial`, the
result of `eigh` is an eigenvector decomposition: for every multi-index, `t[e, x, y] = ∑ₖ u[e, x, k] d[e, k] conj(u[e, y, k])`,
when the dense solver gives one for every hermitian matrix.
Not covered: tensors with a missing block (`C67_missing_fails`) and the tensors of `C43_rule_fails`. -/
theorem C67_product_partial [AddCommGroup G] [LinearOrder G] [Semiring R] [StarRing R] (fac : Blk R → Blk R × Blk R)
    (hfac : EighSizes fac) (hprod : EighProduct fac) (t : BT G R) (lead : Shape G) (dr dc : Dim G) (hs : t.shape = lead ++ [dr, dc])
    (hc : Conserving t.shape t.rule t.blocks) (hz : ∀ d ∈ t.shape, 0 < dimSize d)
    (n0 : Nat) (c0 : G) (h0 : dc[0]? = some (n0, c0)) (hrule : chargeAt dc 0 + c0 = 0)
    (hst : ∀ k, Allowed t.shape t.rule k → lookup t.blocks k ≠ none) (hlen : dr.length = dc.length)
    (hdiag : ∀ o secs, sections lead o = some secs → ∀ (i : Nat) (x y : Nat × G), dr[i]? = some x → dc[i]? = some y →
      x.1 = y.1 ∧ charge secs + x.2 + y.2 = t.rule)
    (hherm : ∀ e x y, InRange e (lead.map dimSize) → x < dimSize dr → y < dimSize dr →
      entry t.shape t.blocks (e ++ [x, y]) = star (entry t.shape t.blocks (e ++ [y, x]))) :
    ∃ d u r, eighFull fac t = .ok (d, u) ∧ u.shape = lead ++ [dr, r] ∧ d.shape = neutralised (lead ++ [r]) ∧
      ∀ e x y, InRange e (lead.map dimSize) → x < dimSize dr → y < dimSize dr →
        entry t.shape t.blocks (e ++ [x, y]) = ∑ k ∈ range (dimSize r),
          entry u.shape u.blocks (e ++ [x, k]) * entry d.shape d.blocks (e ++ [k]) * star (entry u.shape u.blocks (e ++ [y, k])) := by
  obtain ⟨gs, g1, g2, g3, g4⟩ := C41_compact t lead dr dc hs hc
  obtain ⟨mu, md, h1, ⟨u1, u2⟩, d1, d2⟩ := eighFull_eq fac t lead dr dc hs hz gs g1 g2 n0 c0 h0 (.inr hrule)
  refine ⟨_, _, bondE dc gs, h1, rfl, rfl, ?_⟩
  intro e x y he hx hy
  have hsize : ∀ (i : Nat) (x y : Nat × G), dr[i]? = some x → dc[i]? = some y → x.1 = y.1 := by
    intro i x y h1 h2
    obtain ⟨⟨o, eo⟩, hle⟩ := locateAll_isSome.2 he
    obtain ⟨secs, hsec, _⟩ := locateAll_sections hle
    exact (hdiag o secs hsec i x y h1 h2).1
  have hloc := locate_same hlen hsize
  have hsq : ∀ g ∈ gs, g.rows = g.cols ∧ ∃ secs n, g.m.dims = secs ++ [n, n] ∧ HermitianBlk g.m secs n := by
    intro g hg
    obtain ⟨secs, nr, nc, p, q, hC, hch⟩ := g2 g hg
    obtain ⟨e1, e2⟩ := square_spans hs hst hlen hdiag hC hch
    exact ⟨e1, secs.map Prod.fst, nr, by rw [hC.dims, ← e2], hermitian_mat hs hloc hherm hC e1 e2⟩
  have hdims : ∀ g ∈ gs, ∀ ld nr nc, g.m.dims = ld ++ [nr, nc] → nr = matCols g ∧ nc = matCols g ∧ HermitianBlk g.m ld nr := by
    intro g hg ld nr nc h
    obtain ⟨_, ld', n, h', hH⟩ := hsq g hg
    obtain ⟨m1, m2⟩ := matRows_eq h
    rw [h] at h'
    obtain ⟨rfl, rfl, rfl⟩ := last_inj h'
    exact ⟨m2.symm, m2.symm, hH⟩
  rw [factors_product (r := bondE dc gs) (K := matCols) (FU := fun g => (fac g.m).2) (FV := fun g => (fac g.m).2) (mv := mu) hs (fun g hg => by
      obtain ⟨secs, nr, nc, p, q, h, _⟩ := g2 g hg
      exact ⟨secs, nr, nc, p, q, h⟩) g3 g4 u2 d2 ?_ (fun n g h => by simp [secSize, bondE, h]) (by simp [bondE])
    (fun g hg ld nr nc h => by
      obtain ⟨e1, e2, _⟩ := hdims g hg ld nr nc h
      rw [e1, e2] at h
      rw [e1, e2]
      exact ⟨(hfac _ _ _ h).2, (hfac _ _ _ h).2⟩)
    (fun g hg ld nr nc h => by
      obtain ⟨e1, e2, e3⟩ := hdims g hg ld nr nc h
      rw [e1, e2] at h
      rw [e1] at e3
      rw [e1, e2]
      exact hprod _ _ _ h e3) e x y he hx (by rw [← dimSize_same hlen hsize]; exact hy)]
  · refine Finset.sum_congr rfl fun k _ => ?_
    have hd : entry (neutralised (lead ++ [bondE dc gs])) md (e ++ [k]) = entry (lead ++ [bondE dc gs]) md (e ++ [k]) := by
      unfold entry
      rw [locateAll_neutral]
    have hv : entry (lead ++ [dc, bondE dc gs]) mu (e ++ [y, k]) = entry (lead ++ [dr, bondE dc gs]) mu (e ++ [y, k]) := by
      have : ∀ (l : Shape G) (e : List Nat), locateAll (l ++ [dc, bondE dc gs]) e = locateAll (l ++ [dr, bondE dc gs]) e := by
        intro l
        induction l with
        | nil =>
          intro e
          cases e with
          | nil => rfl
          | cons a e => simp only [List.nil_append, locateAll_comb, hloc]
        | cons d l ih =>
          intro e
          cases e with
          | nil => rfl
          | cons a e => simp only [List.cons_append, locateAll_comb, ih]
      unfold entry
      rw [this]
    rw [hd, hv]
  · intro k b
    rw [u2]
    constructor
    · rintro ⟨n, g, hg, s, s1, s2⟩
      exact ⟨n, g, hg, s, (hsq g (List.mem_of_getElem? hg)).1 ▸ s1, s2⟩
    · rintro ⟨n, g, hg, s, s1, s2⟩
      exact ⟨n, g, hg, s, (hsq g (List.mem_of_getElem? hg)).1 ▸ s1, s2⟩

/-- **C67.**  For a matrix, the eigenvectors are orthonormal over all sections together, under the same conditions. -/
theorem C67_orthonormal_partial [AddCommGroup G] [LinearOrder G] [Semiring R] [StarRing R] (fac : Blk R → Blk R × Blk R)
    (hfac : EighSizes fac) (horth : EighOrtho fac) (t : BT G R) (dr dc : Dim G) (hs : t.shape = [dr, dc])
    (hc : Conserving t.shape t.rule t.blocks) (hz : ∀ d ∈ t.shape, 0 < dimSize d)
    (n0 : Nat) (c0 : G) (h0 : dc[0]? = some (n0, c0)) (hrule : chargeAt dc 0 + c0 = 0)
    (hst : ∀ k, Allowed t.shape t.rule k → lookup t.blocks k ≠ none) (hlen : dr.length = dc.length)
    (hdiag : ∀ (i : Nat) (x y : Nat × G), dr[i]? = some x → dc[i]? = some y → x.1 = y.1 ∧ x.2 + y.2 = t.rule)
    (hherm : ∀ x y, x < dimSize dr → y < dimSize dr → entry t.shape t.blocks [x, y] = star (entry t.shape t.blocks [y, x])) :
    ∃ d u r, eighFull fac t = .ok (d, u) ∧ u.shape = [dr, r] ∧ ∀ k k', k < dimSize r → k' < dimSize r →
        ∑ x ∈ range (dimSize dr), star (entry u.shape u.blocks [x, k]) * entry u.shape u.blocks [x, k'] = if k = k' then 1 else 0 := by
  obtain ⟨gs, g1, g2, g3, g4⟩ := C41_compact t [] dr dc hs hc
  obtain ⟨mu, md, h1, ⟨u1, u2⟩, d1, d2⟩ := eighFull_eq fac t [] dr dc hs hz gs g1 g2 n0 c0 h0 (.inr hrule)
  refine ⟨_, _, bondE dc gs, h1, rfl, ?_⟩
  have hloc := locate_same hlen fun i x y h1 h2 => (hdiag i x y h1 h2).1
  have hone : ∀ g ∈ gs, g.other = [] ∧ g.m.dims = [matCols g, matCols g] ∧ Tiles dr (matCols g) g.rows ∧
      HermitianBlk g.m [] (matCols g) := by
    intro g hg
    obtain ⟨secs, nr, nc, p, q, hC, hch⟩ := g2 g hg
    have hl := sections_length hC.leads
    have ho : g.other = [] := List.length_eq_zero_iff.1 (by simpa using hl.1)
    have hsecs : secs = [] := List.length_eq_zero_iff.1 (by simpa using hl.2)
    subst hsecs
    obtain ⟨e1, e2⟩ := square_spans hs hst hlen (by
      intro o secs ho i x y hx hy
      have : secs = [] := List.length_eq_zero_iff.1 (by simpa using (sections_length ho).2)
      subst this
      simpa [charge] using hdiag i x y hx hy) hC hch
    have hH := hermitian_mat hs hloc (by
      intro e x y he hx hy
      cases he
      exact hherm x y hx hy) hC e1 e2
    have hd := hC.dims
    obtain ⟨m1, m2⟩ := matRows_eq hd
    refine ⟨ho, ?_, ?_, ?_⟩
    · rw [m2, hd, ← e2]; rfl
    · rw [m2, ← e2]; exact hC.rowTiles
    · rw [m2, ← e2]; exact hH
  intro k k' hk hk'
  refine factor_ortho (N := matCols) (K := matCols) u2 (fun g hg => (hone g hg).1) (fun g hg => (hone g hg).2.2.1) ?_
    (fun n g h => by simp [secSize, bondE, h]) (by simp [bondE]) ?_ ?_ k k' hk hk'
  · intro g hg
    exact (hfac g.m [] _ (hone g hg).2.1).2
  · intro n n' g g' s s' hg hg' hs1 hs2 he
    refine matrix_unique g3 hg hg' ?_ (Or.inl ⟨s, hs1, s', hs2, he⟩)
    rw [(hone g (List.mem_of_getElem? hg)).1, (hone g' (List.mem_of_getElem? hg')).1]
  · intro g hg a b ha hb
    exact horth g.m [] _ (hone g hg).2.1 (hone g hg).2.2.2 [] a b .nil ha hb

end BT
end QuantiT
