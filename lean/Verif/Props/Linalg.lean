import Verif.Lemmas.Linalg
/-
Collecting the blocks of a tensor into dense matrices, C41.
-/
namespace QuantiT
namespace BT
open Spec
variable {G R : Type}

theorem mapM_rel {α β : Type} {f : α → Res β} {P : α → β → Prop} : ∀ (l : List α), (∀ x ∈ l, ∃ y, f x = .ok y ∧ P x y) →
    ∃ r, l.mapM f = .ok r ∧ List.Forall₂ P l r
  | [], _ => ⟨[], rfl, .nil⟩
  | x :: l, h => by
    obtain ⟨y, y1, y2⟩ := h x (by simp)
    obtain ⟨r, r1, r2⟩ := mapM_rel l fun z hz => h z (by simp [hz])
    exact ⟨y :: r, by rw [List.mapM_cons, y1, r1]; rfl, .cons y2 r2⟩

theorem forall₂_right {α β : Type} {P : α → β → Prop} {l : List α} {r : List β} (h : List.Forall₂ P l r) : ∀ y ∈ r, ∃ x ∈ l, P x y := by
  induction h with
  | nil => simp
  | cons h _ ih =>
    intro y hy
    rcases List.mem_cons.1 hy with rfl | hy
    · exact ⟨_, by simp, h⟩
    · obtain ⟨x, x1, x2⟩ := ih y hy
      exact ⟨x, by simp [x1], x2⟩

theorem forall₂_left {α β : Type} {P : α → β → Prop} {l : List α} {r : List β} (h : List.Forall₂ P l r) : ∀ x ∈ l, ∃ y ∈ r, P x y := by
  induction h with
  | nil => simp
  | cons h _ ih =>
    intro y hy
    rcases List.mem_cons.1 hy with rfl | hy
    · exact ⟨_, by simp, h⟩
    · obtain ⟨x, x1, x2⟩ := ih y hy
      exact ⟨x, by simp [x1], x2⟩

theorem pairwise_rel {α β : Type} {P : α → β → Prop} {Q : α → α → Prop} {S : β → β → Prop}
    (h : ∀ a b x y, P a x → P b y → Q a b → S x y) {l : List α} {r : List β} (h2 : List.Forall₂ P l r) (hl : l.Pairwise Q) :
    r.Pairwise S := by
  induction h2 with
  | nil => exact .nil
  | cons h1 h2 ih =>
    obtain ⟨p1, p2⟩ := List.pairwise_cons.1 hl
    refine List.pairwise_cons.2 ⟨?_, ih p2⟩
    intro y hy
    obtain ⟨x, x1, x2⟩ := forall₂_right h2 y hy
    exact h _ _ _ _ h1 x2 (p1 x x1)

/-- **C41.**  For a conserving tensor with at least two dimensions, the blocks are collected into matrices without undefined
behaviour or exception; every matrix holds exactly the blocks of one pair of charges (and one index of the first dimensions),
each in its own range of rows and columns, zero elsewhere; no two matrices share a row or a column section (for the same index of
the first dimensions); and every stored block is held by exactly one matrix. -/
theorem C41_compact [AddCommGroup G] [LinearOrder G] [Zero R] (t : BT G R) (lead : Shape G) (dr dc : Dim G)
    (hs : t.shape = lead ++ [dr, dc]) (hc : Conserving t.shape t.rule t.blocks) :
    ∃ gs, compactDense t = .ok gs ∧
      (∀ g ∈ gs, ∃ secs nr nc p q, Collected lead dr dc t.blocks g.m g.other g.rows g.cols secs nr nc p q ∧
        charge secs + p + q = t.rule) ∧
      (gs.Pairwise fun g g' => g.other = g'.other →
        (∀ s ∈ g.rows, ∀ s' ∈ g'.rows, s.1 ≠ s'.1) ∧ ∀ s ∈ g.cols, ∀ s' ∈ g'.cols, s.1 ≠ s'.1) ∧
      ∀ k b, (k, b) ∈ t.blocks → ∃! i : Nat, ∃ g : Mat R, gs[i]? = some g ∧ Holds g.other g.rows g.cols k := by
  obtain ⟨l, l1, l2, l3, l4, l5⟩ := reorder_eq hs hc
  have hsame : ∀ a ∈ l, ∀ b ∈ l, sameMatrix a b = true → TagBefore a b → a.key < b.key := by
    intro a ha b hb hab hT
    obtain ⟨_, _, _, _, _, _, _, k1, _⟩ := l3 a ha
    obtain ⟨_, _, _, _, _, _, _, k2, _⟩ := l3 b hb
    obtain ⟨_, h2, h3⟩ := (sameMatrix_iff k1 k2).1 hab
    rcases hT with h | ⟨_, h | ⟨_, h⟩⟩
    · rw [h3] at h; exact absurd h (lt_irrefl _)
    · rw [h2] at h; exact absurd h (lt_irrefl _)
    · exact h
  obtain ⟨c1, c2, c3⟩ := cutRuns_spec (same := sameMatrix) (T := TagBefore)
    (fun a => by simp [sameMatrix])
    (fun a b h => by simp only [sameMatrix, Bool.and_eq_true, decide_eq_true_eq] at h ⊢; exact ⟨⟨h.1.1.symm, h.1.2.symm⟩, h.2.symm⟩)
    (fun a b c h h' => by
      simp only [sameMatrix, Bool.and_eq_true, decide_eq_true_eq] at h h' ⊢
      exact ⟨⟨h.1.1.trans h'.1.1, h.1.2.trans h'.1.2⟩, h.2.trans h'.2⟩)
    l l2 (fun a ha b hb c hc => sameMatrix_convex (l3 a ha) (l3 b hb) (l3 c hc))
  have hin : ∀ g ∈ cutRuns sameMatrix l, ∀ a ∈ g, a ∈ l := by
    intro g hg a ha
    rw [← c1]
    exact List.mem_flatten.2 ⟨g, hg, ha⟩
  -- one run
  have hone : ∀ g ∈ cutRuns sameMatrix l, ∃ mt, compactSingle g = .ok mt ∧ (∃ secs nr nc p q,
      Collected lead dr dc t.blocks mt.m mt.other mt.rows mt.cols secs nr nc p q ∧ charge secs + p + q = t.rule ∧
      (∀ a ∈ g, a.row = p ∧ a.col = q) ∧ (∃ a, a ∈ g)) ∧
      (∀ a ∈ g, ∃ i j, a.key = mt.other ++ [i, j]) ∧ ∀ a ∈ g, Holds mt.other mt.rows mt.cols a.key := by
    intro g hg
    obtain ⟨hne, hsm⟩ := c2 g hg
    obtain ⟨a0, g', rfl⟩ := List.exists_cons_of_ne_nil hne
    obtain ⟨o, secs, i0, j0, x0, y0, s1, s2, s3, s4, s5, s6, s7, s8, s9⟩ := l3 a0 (hin _ hg a0 (by simp))
    have hl : (secs.map Prod.fst).length = o.length := by
      obtain ⟨h1, h2⟩ := sections_length s1
      simp [h1, h2]
    have hall : ∀ a ∈ a0 :: g', InMat dr dc o (secs.map Prod.fst) a ∧ a.row = x0.2 ∧ a.col = y0.2 ∧
        (∀ x, dr[rowIx a]? = some x → x.2 = x0.2) ∧ (∀ y, dc[colIx a]? = some y → y.2 = y0.2) := by
      intro a ha
      obtain ⟨o', secs', i, j, x, y, u1, u2, u3, u4, u5, u6, u7, u8, u9⟩ := l3 a (hin _ hg a ha)
      obtain ⟨rfl, v2, v3⟩ := (sameMatrix_iff s2 u2).1 (hsm a0 (by simp) a ha)
      rw [s1] at u1
      cases u1
      have hIn : InMat dr dc o (secs.map Prod.fst) a := ⟨i, j, x, y, u2, u3, u4, u7⟩
      have hri : rowIx a = i := by unfold rowIx; rw [u2]; exact (getD_last2 o i j 0).1
      have hci : colIx a = j := by unfold colIx; rw [u2]; exact (getD_last2 o i j 0).2
      refine ⟨hIn, by rw [← v3, s5], by rw [← v2, s6], ?_, ?_⟩
      · intro x' hx'
        rw [hri, u3] at hx'
        cases hx'
        rw [← u5, ← v3, s5]
      · intro y' hy'
        rw [hci, u4] at hy'
        cases hy'
        rw [← u6, ← v2, s6]
    have hpw : (a0 :: g').Pairwise TagBefore := by
      have hsub : (a0 :: g').Sublist l := by
        rw [← c1]
        exact List.sublist_flatten_of_mem hg
      exact l2.sublist hsub
    obtain ⟨mt, nr, nc, m1, m2, m3, m4, m5, m6, m7, ⟨mo1, mo2⟩, m8⟩ := compactSingle_eq hl (by simp) (fun a ha => (hall a ha).1)
      (hpw.imp_of_mem fun {a b} ha hb hT => hsame a (hin _ hg a ha) b (hin _ hg b hb) (hsm a ha b hb) hT)
    have hix : ∀ a ∈ a0 :: g', a.key = o ++ [rowIx a, colIx a] := fun a ha => by
      obtain ⟨_, _, h, _⟩ := inMat_ix (hall a ha).1 hl
      exact h
    have hHolds : ∀ a ∈ a0 :: g', Holds mt.other mt.rows mt.cols a.key := by
      intro a ha
      obtain ⟨s, h1, h2⟩ := List.mem_map.1 ((m6 (rowIx a)).2 ⟨a, ha, rfl⟩)
      obtain ⟨s', h3, h4⟩ := List.mem_map.1 ((m7 (colIx a)).2 ⟨a, ha, rfl⟩)
      exact ⟨s, h1, s', h3, by rw [m2, h2, h4]; exact hix a ha⟩
    have hstored : ∀ a ∈ a0 :: g', lookup t.blocks a.key = some a.blk := by
      intro a ha
      obtain ⟨_, _, _, _, _, _, _, _, _, _, _, _, _, u8, _⟩ := l3 a (hin _ hg a ha)
      exact lookup_of_mem hc.sorted u8
    -- a stored block with the charges of the run is in the run
    have hfull : ∀ i j b n n', (o ++ [i, j], b) ∈ t.blocks → dr[i]? = some (n, x0.2) → dc[j]? = some (n', y0.2) →
        ∃ a ∈ a0 :: g', a.key = o ++ [i, j] := by
      intro i j b n n' hb hi hj
      obtain ⟨a, a1, a2, _⟩ := l4 _ _ hb
      obtain ⟨o', secs', i', j', x, y, u1, u2, u3, u4, u5, u6, _⟩ := l3 a a1
      rw [a2] at u2
      have hoo : o = o' := by
        have := congrArg (fun l => l.take (l.length - 2)) u2
        simpa using this
      subst hoo
      have := List.append_cancel_left u2
      simp only [List.cons.injEq, and_true] at this
      obtain ⟨rfl, rfl⟩ := this
      rw [hi] at u3
      rw [hj] at u4
      cases u3; cases u4
      have hsm' : sameMatrix a0 a = true := (sameMatrix_iff s2 a2).2 ⟨rfl, by rw [s6, u6], by rw [s5, u5]⟩
      rw [← c1] at a1
      obtain ⟨g2, g21, g22⟩ := List.mem_flatten.1 a1
      by_cases hgg : g2 = a0 :: g'
      · exact ⟨a, hgg ▸ g22, a2⟩
      · exfalso
        have hsym : ∀ {g1 g2 : List (Tagged G R)}, (∀ x ∈ g1, ∀ y ∈ g2, sameMatrix x y = false) → ∀ x ∈ g2, ∀ y ∈ g1, sameMatrix x y = false := by
          intro g1 g2 h x hx y hy
          have := h y hy x hx
          simp only [sameMatrix, Bool.and_eq_false_iff, decide_eq_false_iff_not] at this ⊢
          rcases this with (h | h) | h
          · exact Or.inl (Or.inl (Ne.symm h))
          · exact Or.inl (Or.inr (Ne.symm h))
          · exact Or.inr (Ne.symm h)
        have := List.Pairwise.forall_of_forall_of_flip (R := fun g g' => g ≠ g' → ∀ x ∈ g, ∀ y ∈ g', sameMatrix x y = false)
          (l := cutRuns sameMatrix l) (fun _ _ h => absurd rfl h) (c3.imp (by intro _ _ h _; exact h))
          (c3.imp (by intro _ _ h _; exact hsym h)) hg g21 (Ne.symm hgg) a0 (by simp) a g22
        rw [hsm'] at this
        cases this
    refine ⟨mt, m1, ⟨secs, nr, nc, x0.2, y0.2, ?_, s9, fun a ha => ⟨(hall a ha).2.1, (hall a ha).2.2.1⟩, ⟨a0, by simp⟩⟩,
      fun a ha => ⟨_, _, m2 ▸ hix a ha⟩, hHolds⟩
    have hrowc : ∀ s ∈ mt.rows, ∃ a ∈ a0 :: g', s.1 = rowIx a := fun s h => (m6 s.1).1 (List.mem_map.2 ⟨s, h, rfl⟩)
    have hcolc : ∀ s ∈ mt.cols, ∃ a ∈ a0 :: g', s.1 = colIx a := fun s h => (m7 s.1).1 (List.mem_map.2 ⟨s, h, rfl⟩)
    have hspan : ∀ a ∈ a0 :: g', ∃ s ∈ mt.rows, ∃ s' ∈ mt.cols, s.1 = rowIx a ∧ s'.1 = colIx a := by
      intro a ha
      obtain ⟨s, h1, h2⟩ := List.mem_map.1 ((m6 (rowIx a)).2 ⟨a, ha, rfl⟩)
      obtain ⟨s', h3, h4⟩ := List.mem_map.1 ((m7 (colIx a)).2 ⟨a, ha, rfl⟩)
      exact ⟨s, h1, s', h3, h2, h4⟩
    constructor
    · rw [m2]; exact s1
    · exact m3
    · exact m4
    · exact m5
    · intro s h
      obtain ⟨a, ha, e⟩ := hrowc s h
      obtain ⟨x, h1, _⟩ := m4.size s h
      refine ⟨x.1, ?_⟩
      rw [h1, ← (hall a ha).2.2.2.1 x (by rw [← e]; exact h1)]
    · intro s h
      obtain ⟨a, ha, e⟩ := hcolc s h
      obtain ⟨x, h1, _⟩ := m5.size s h
      refine ⟨x.1, ?_⟩
      rw [h1, ← (hall a ha).2.2.2.2 x (by rw [← e]; exact h1)]
    · obtain ⟨s, h1, s', h2, _⟩ := hspan a0 (by simp)
      exact ⟨List.ne_nil_of_mem h1, List.ne_nil_of_mem h2⟩
    · exact mo1
    · intro hno
      refine mo2 fun a ha b hb => ?_
      obtain ⟨s, h1, _, _, e1, _⟩ := hspan a ha
      obtain ⟨_, _, s', h2, _, e2⟩ := hspan b hb
      rcases hlk : lookup t.blocks (mt.other ++ [s.1, s'.1]) with _ | v
      · exact absurd hlk (hno s h1 s' h2)
      · obtain ⟨x, x1, _⟩ := m4.size s h1
        obtain ⟨y, y1, _⟩ := m5.size s' h2
        have x2 := (hall a ha).2.2.2.1 x (by rw [← e1]; exact x1)
        have y2 := (hall b hb).2.2.2.2 y (by rw [← e2]; exact y1)
        rw [m2] at hlk
        obtain ⟨c, c1, c2⟩ := hfull s.1 s'.1 v x.1 y.1 (mem_of_lookup hlk) (by rw [x1, ← x2]) (by rw [y1, ← y2])
        refine ⟨c, c1, ?_, ?_⟩
        · unfold rowIx; rw [c2, (getD_last2 o s.1 s'.1 0).1]; exact e1
        · unfold colIx; rw [c2, (getD_last2 o s.1 s'.1 0).2]; exact e2
    · intro s h
      obtain ⟨a, ha, e⟩ := hrowc s h
      obtain ⟨_, _, s', h2, _, e'⟩ := hspan a ha
      refine ⟨s', h2, ?_⟩
      rw [e, e', m2, ← hix a ha, hstored a ha]
      simp
    · intro s h
      obtain ⟨a, ha, e⟩ := hcolc s h
      obtain ⟨s', h2, _, _, e', _⟩ := hspan a ha
      refine ⟨s', h2, ?_⟩
      rw [e, e', m2, ← hix a ha, hstored a ha]
      simp
    · intro i j b n n' hb hi hj
      rw [m2] at hb ⊢
      obtain ⟨a, a1, a2⟩ := hfull i j b n n' hb hi hj
      rw [← a2, ← m2]
      exact hHolds a a1
    · intro e he s hs' s' hs'' r c h1 h2 h3 h4
      obtain ⟨n1, n2⟩ := m8 e he s hs' s' hs'' r c h1 h2 h3 h4
      rw [m2]
      rcases hlk : lookup t.blocks (o ++ [s.1, s'.1]) with _ | b
      · simp only
        refine n2 fun a ha hk => ?_
        have := hstored a ha
        rw [hk, hlk] at this
        cases this
      · simp only
        obtain ⟨a, ha, e1⟩ := hrowc s hs'
        obtain ⟨a', ha', e2⟩ := hcolc s' hs''
        obtain ⟨x, x1, _⟩ := m4.size s hs'
        obtain ⟨y, y1, _⟩ := m5.size s' hs''
        have x2 := (hall a ha).2.2.2.1 x (by rw [← e1]; exact x1)
        have y2 := (hall a' ha').2.2.2.2 y (by rw [← e2]; exact y1)
        obtain ⟨a'', a1, a2⟩ := hfull s.1 s'.1 b x.1 y.1 (mem_of_lookup hlk) (by rw [x1, ← x2]) (by rw [y1, ← y2])
        rw [n1 a'' a1 a2]
        have := hstored a'' a1
        rw [a2, hlk] at this
        cases this
        rfl
  obtain ⟨gs, g1, g2⟩ := mapM_rel _ hone
  have hdisj : gs.Pairwise fun g g' => g.other = g'.other →
        (∀ s ∈ g.rows, ∀ s' ∈ g'.rows, s.1 ≠ s'.1) ∧ ∀ s ∈ g.cols, ∀ s' ∈ g'.cols, s.1 ≠ s'.1 := by
    refine pairwise_rel ?_ g2 c3
    rintro r r' m m' ⟨⟨secs, nr, nc, p, q, hC, hch, hpq, a, ha⟩, hk, _⟩ ⟨⟨secs', nr', nc', p', q', hC', hch', hpq', a', ha'⟩, hk', _⟩ hQ ho
    have hss : secs = secs' := by
      have h1 := hC.leads
      rw [ho, hC'.leads] at h1
      exact (Option.some.inj h1).symm
    subst hss
    have hne : ¬ (p = p' ∧ q = q') := by
      rintro ⟨rfl, rfl⟩
      obtain ⟨i, j, k1⟩ := hk a ha
      obtain ⟨i', j', k2⟩ := hk' a' ha'
      have h1 := hQ a ha a' ha'
      rw [(sameMatrix_iff k1 k2).2 ⟨ho, by rw [(hpq a ha).2, (hpq' a' ha').2], by rw [(hpq a ha).1, (hpq' a' ha').1]⟩] at h1
      cases h1
    constructor
    · intro s hs1 s' hs2 he
      obtain ⟨n, h1⟩ := hC.rowCharge s hs1
      obtain ⟨n', h2⟩ := hC'.rowCharge s' hs2
      rw [he, h2] at h1
      have hp : p' = p := congrArg Prod.snd (Option.some.inj h1)
      subst hp
      exact hne ⟨rfl, add_left_cancel (hch.trans hch'.symm)⟩
    · intro s hs1 s' hs2 he
      obtain ⟨n, h1⟩ := hC.colCharge s hs1
      obtain ⟨n', h2⟩ := hC'.colCharge s' hs2
      rw [he, h2] at h1
      have hp : q' = q := congrArg Prod.snd (Option.some.inj h1)
      subst hp
      exact hne ⟨add_left_cancel (add_right_cancel (hch.trans hch'.symm)), rfl⟩
  refine ⟨gs, ?_, ?_, hdisj, ?_⟩
  · unfold compactDense
    rw [l1]
    exact g1
  · intro g hg
    obtain ⟨r, _, ⟨secs, nr, nc, p, q, h1, h2, _⟩, _⟩ := forall₂_right g2 g hg
    exact ⟨secs, nr, nc, p, q, h1, h2⟩
  · intro k b hkb
    obtain ⟨a, a1, a2, _⟩ := l4 k b hkb
    rw [← c1] at a1
    obtain ⟨r, r1, r2⟩ := List.mem_flatten.1 a1
    obtain ⟨g, h1, _, _, h3⟩ := forall₂_left g2 r r1
    obtain ⟨i, hi⟩ := List.mem_iff_getElem?.1 h1
    refine ⟨i, ⟨g, hi, a2 ▸ h3 a r2⟩, ?_⟩
    rintro i' ⟨g', hi', s', hs1, t', ht1, hk'⟩
    obtain ⟨s, hs2, tt, ht2, hk⟩ := a2 ▸ h3 a r2
    rw [hk'] at hk
    have ho : g'.other = g.other := by
      have := congrArg (fun l => l.take (l.length - 2)) hk
      simpa using this
    rw [ho] at hk
    have hcs := List.append_cancel_left hk
    simp only [List.cons.injEq, and_true] at hcs
    by_contra hne
    rcases Nat.lt_or_gt_of_ne hne with hlt | hlt
    · have := (List.pairwise_iff_getElem.1 hdisj i' i (List.getElem?_eq_some_iff.1 hi').1 (List.getElem?_eq_some_iff.1 hi).1 hlt)
      rw [(List.getElem?_eq_some_iff.1 hi').2, (List.getElem?_eq_some_iff.1 hi).2] at this
      exact (this ho).1 s' hs1 s hs2 hcs.1
    · have := (List.pairwise_iff_getElem.1 hdisj i i' (List.getElem?_eq_some_iff.1 hi).1 (List.getElem?_eq_some_iff.1 hi').1 hlt)
      rw [(List.getElem?_eq_some_iff.1 hi').2, (List.getElem?_eq_some_iff.1 hi).2] at this
      exact (this ho.symm).1 s hs2 s' hs1 hcs.1.symm

/-- A two by three grid of sections: rows of charges 0, 1, 0, columns of charges 1, 0, 1. -/
def ex41 : BT ℤ ℤ :=
  ⟨[[(2, 0), (1, 1), (1, 0)], [(1, 1), (2, 0), (1, 1)]], 1,
    [([0, 0], ⟨[2, 1], fun _ => 1⟩), ([0, 2], ⟨[2, 1], fun _ => 2⟩), ([1, 1], ⟨[1, 2], fun _ => 3⟩), ([2, 2], ⟨[1, 1], fun _ => 4⟩)]⟩

theorem ex41_conserving : Conserving ex41.shape ex41.rule ex41.blocks := by
  refine ⟨by unfold Sorted; decide, ?_⟩
  intro k b h
  simp only [ex41, List.mem_cons, Prod.mk.injEq, List.not_mem_nil, or_false] at h
  rcases h with ⟨rfl, rfl⟩ | ⟨rfl, rfl⟩ | ⟨rfl, rfl⟩ | ⟨rfl, rfl⟩
  · exact ⟨[(2, 0), (1, 1)], rfl, by decide, rfl⟩
  · exact ⟨[(2, 0), (1, 1)], rfl, by decide, rfl⟩
  · exact ⟨[(1, 1), (2, 0)], rfl, by decide, rfl⟩
  · exact ⟨[(1, 0), (1, 1)], rfl, by decide, rfl⟩

/-- Two matrices, one made of three blocks. -/
example : (compactDense ex41).map (fun gs => gs.map fun g => (g.m.dims, g.rows, g.cols)) =
    .ok [([3, 2], [(0, 0, 2), (2, 2, 3)], [(0, 0, 1), (2, 1, 2)]), ([1, 2], [(1, 0, 1)], [(1, 0, 2)])] := rfl

/-- The hypotheses are met: a tensor with four blocks in two matrices. -/
example : ∃ gs, compactDense ex41 = .ok gs ∧ ∀ k b, (k, b) ∈ ex41.blocks →
    ∃! i : Nat, ∃ g : Mat ℤ, gs[i]? = some g ∧ Holds g.other g.rows g.cols k := by
  obtain ⟨gs, h1, _, _, h4⟩ := C41_compact ex41 [] _ _ rfl ex41_conserving
  exact ⟨gs, h1, h4⟩

end BT
end QuantiT
