import Verif.Model.Bmm
import Verif.Lemmas.Contract2
/-
The loops of `bmm`.
-/
set_option linter.unusedSectionVars false
namespace QuantiT.BT
open QuantiT.Spec
variable {G R : Type}

/-! ### One row and one column -/

theorem bmmAcc_eq [Semiring R] (lead : Nat) : ∀ (n : Nat) (acc : Blk R) (as bs : FM (List Nat) (Blk R)),
    as.length + bs.length ≤ n → TailSorted 1 as → TailSorted 1 bs →
    bmmAcc lead n acc as bs = (pairsList 1 as bs).foldlM (fun acc p => bmmProd lead acc p.1 p.2) acc
  | n, acc, [], bs, _, _, _ => by cases n <;> simp [bmmAcc, pairsList, pure, Except.pure]
  | n, acc, a :: as, [], _, _, _ => by cases n <;> simp [bmmAcc, pairsList_nil_right, pure, Except.pure]
  | 0, acc, a :: as, b :: bs, h, _, _ => by simp at h
  | n + 1, acc, a :: as, b :: bs, h, ha, hb => by
    simp only [List.length_cons] at h
    obtain ⟨ha1, ha2⟩ := List.pairwise_cons.1 ha
    obtain ⟨hb1, hb2⟩ := List.pairwise_cons.1 hb
    rw [bmmAcc]
    split
    · rename_i he
      have h1 : pairsList 1 (a :: as) (b :: bs) = (a.2, b.2) :: pairsList 1 as bs := by
        rw [pairsList_cons_left, List.map_cons, lookup_cons, if_pos he.symm,
          pairsList_drop_right (fun x hx => by rw [← he]; exact ne_of_lt (ha1 x hx))]
        rfl
      rw [h1, List.foldlM_cons]
      congr 1
      funext acc'
      exact bmmAcc_eq lead n acc' as bs (by omega) ha2 hb2
    · rename_i hne
      split
      · rename_i hlt
        have h1 : pairsList 1 (a :: as) (b :: bs) = pairsList 1 as (b :: bs) := by
          rw [pairsList_cons_left, lookup_tail_none]
          · rfl
          · intro y hy
            rcases List.mem_cons.1 hy with rfl | hy
            · exact fun e => hne e.symm
            · exact ne_of_gt (lt_trans hlt (hb1 y hy))
        rw [h1]
        exact bmmAcc_eq lead n acc as (b :: bs) (by simp; omega) ha2 hb
      · rename_i hge
        have hlt := lt_of_le_of_ne (not_lt.1 hge) (Ne.symm hne)
        have h1 : pairsList 1 (a :: as) (b :: bs) = pairsList 1 (a :: as) bs := by
          apply pairsList_drop_right
          intro x hx
          rcases List.mem_cons.1 hx with rfl | hx
          · exact ne_of_lt hlt
          · exact ne_of_lt (lt_trans hlt (ha1 x hx))
        rw [h1]
        exact bmmAcc_eq lead n acc (a :: as) bs (by simp; omega) ha hb2

/-- The last but one and the last size. -/
def size2 (d : List Nat) : Nat := d.getD (d.length - 2) 0
@[inherit_doc size2] def size1 (d : List Nat) : Nat := d.getD (d.length - 1) 0

theorem size2_append (b : List Nat) (n m : Nat) : size2 (b ++ [n, m]) = n := by
  simp [size2, List.getD_eq_getElem?_getD]

theorem size1_append (b : List Nat) (n m : Nat) : size1 (b ++ [n, m]) = m := by
  simp [size1, List.getD_eq_getElem?_getD]

theorem lead_append (b : List Nat) (n m : Nat) : (b ++ [n, m]).take ((b ++ [n, m]).length - 2) = b := by simp

variable [Semiring R]

/-- One product of two blocks seen as batches of matrices, at position `o` of the result. -/
def cellEntry (lead : Nat) (p : Blk R × Blk R) (o : List Nat) : R :=
  ((List.range (size1 p.1.dims)).map fun j =>
    p.1.f (unflat p.1.dims (flat [lead, size2 p.1.dims, size1 p.1.dims] [o.getD 0 0, o.getD 1 0, j])) *
    p.2.f (unflat p.2.dims (flat [lead, size2 p.2.dims, size1 p.2.dims] [o.getD 0 0, j, o.getD 2 0]))).sum

theorem foldlM_bmmProd {β : List Nat} {n m : Nat} : ∀ (ps : List (Blk R × Blk R)) (acc : Blk R), acc.dims = [β.prod, n, m] →
    (∀ p ∈ ps, ∃ c, p.1.dims = β ++ [n, c] ∧ p.2.dims = β ++ [c, m]) →
    ps.foldlM (fun acc p => bmmProd β.prod acc p.1 p.2) acc =
      .ok ⟨[β.prod, n, m], fun o => acc.f o + (ps.map fun p => cellEntry β.prod p o).sum⟩
  | [], acc, h, _ => by
    obtain ⟨d, f⟩ := acc
    simp only at h; subst h
    simp [pure, Except.pure]
  | p :: ps, acc, h, hp => by
    obtain ⟨c, h1, h2⟩ := hp p (by simp)
    have hs : bmmProd β.prod acc p.1 p.2 = .ok ⟨[β.prod, n, m], fun o => acc.f o + cellEntry β.prod p o⟩ := by
      have e1 : [β.prod, p.1.dims.getD (p.1.dims.length - 2) 0, p.1.dims.getD (p.1.dims.length - 1) 0] = [β.prod, n, c] := by
        have := size2_append β n c; have := size1_append β n c; rw [← h1] at *; simp_all [size1, size2]
      have e2 : [β.prod, p.2.dims.getD (p.2.dims.length - 2) 0, p.2.dims.getD (p.2.dims.length - 1) 0] = [β.prod, c, m] := by
        have := size2_append β c m; have := size1_append β c m; rw [← h2] at *; simp_all [size1, size2]
      simp only [bmmProd, e1, e2]
      simp only [reshapeBlk]
      rw [if_pos (by rw [h1]; simp), if_pos (by rw [h2]; simp)]
      simp only [bind, Except.bind, baddbmm, h, and_self, if_true]
      congr 2
      funext o
      simp only [cellEntry, h1, h2, size1_append, size2_append]
    rw [List.foldlM_cons, hs]
    simp only [bind, Except.bind]
    rw [foldlM_bmmProd ps _ rfl (fun q hq => hp q (by simp [hq]))]
    congr 2
    funext o
    simp [add_assoc]

/-- The block made of the pairs `ps`. -/
def cellBlk (sz : List Nat) (ps : List (Blk R × Blk R)) : Blk R :=
  ⟨sz, fun o => (ps.map fun p => cellEntry (sz.take (sz.length - 2)).prod p
    (unflat [(sz.take (sz.length - 2)).prod, size2 sz, size1 sz] (flat sz o))).sum⟩

theorem flat3 {β ob : List Nat} {n c i l : Nat} (hl : ob.length = β.length) :
    flat [β.prod, n, c] [flat β ob, i, l] = flat (β ++ [n, c]) (ob ++ [i, l]) := by
  rw [flat_append hl]
  simp [flat]

theorem cellBlk_f {β ob : List Nat} {n m i j : Nat} {ps : List (Blk R × Blk R)} (hob : InRange ob β) (hi : i < n) (hj : j < m)
    (hp : ∀ p ∈ ps, ∃ c, p.1.dims = β ++ [n, c] ∧ p.2.dims = β ++ [c, m]) :
    (cellBlk (β ++ [n, m]) ps).f (ob ++ [i, j]) =
      (ps.map fun p => ((List.range (size1 p.1.dims)).map fun l => p.1.f (ob ++ [i, l]) * p.2.f (ob ++ [l, j])).sum).sum := by
  have hl := List.Forall₂.length_eq hob
  simp only [cellBlk, lead_append, size2_append, size1_append]
  rw [← flat3 hl, unflat_flat (.cons (flat_lt hob) (.cons hi (.cons hj .nil)))]
  apply sum_congr'
  intro p hpm
  obtain ⟨c, h1, h2⟩ := hp p hpm
  simp only [cellEntry, List.getD_cons_zero, List.getD_cons_succ, h1, h2, size1_append, size2_append]
  apply sum_congr'
  intro l hlm
  have hlc := List.mem_range.1 hlm
  rw [flat3 hl, flat3 hl, unflat_flat (List.rel_append hob (.cons hi (.cons hlc .nil))),
    unflat_flat (List.rel_append hob (.cons hlc (.cons hj .nil)))]

variable [AddCommMonoid G] [DecidableEq G]

/-- The pairs of blocks that contribute to block `k` of the result; `A` and `B` are the lists of blocks, the second one with
the last two components of its indices exchanged. -/
def cellPairs (A B : FM (List Nat) (Blk R)) (k : List Nat) : List (Blk R × Blk R) :=
  pairsList 1 (col 1 A (headKey 1 k)) (col 1 B (headKey 2 k ++ tailKey 1 k))

/-- Block `k` of the result. -/
def cellVal (sh : Shape G) (A B : FM (List Nat) (Blk R)) (k : List Nat) : Option (Blk R) :=
  if cellPairs A B k = [] then none else some (cellBlk (secSizes sh k) (cellPairs A B k))

/-- What the loops need of the operands and of the empty result. -/
structure CellsOk (sh : Shape G) (rule : G) (A B : FM (List Nat) (Blk R)) : Prop where
  cell : ∀ k, cellPairs A B k ≠ [] → ∃ secs β n m, sections sh k = some secs ∧ charge secs = rule ∧
    secs.map Prod.fst = β ++ [n, m] ∧ ∀ p ∈ cellPairs A B k, ∃ c, p.1.dims = β ++ [n, c] ∧ p.2.dims = β ++ [c, m]

theorem headKey_headKey (k : List Nat) : headKey 1 (headKey 1 k) = headKey 2 k := by
  simp [headKey, List.take_take]; omega

theorem bmmCell_eq {out : BT G R} {A B : FM (List Nat) (Blk R)} (hok : CellsOk out.shape out.rule A B) (hs : Sorted out.blocks)
    {x y : List Nat} (hxy : headKey 1 x = headKey 1 y) (hx : x ≠ []) (hy : y ≠ []) (hA : TailSorted 1 (col 1 A x))
    (hB : TailSorted 1 (col 1 B y)) :
    ∃ m, bmmCell out (col 1 A x) (col 1 B y) = .ok { out with blocks := m } ∧ Sorted m ∧
      ∀ q, lookup m q = if q = x ++ tailKey 1 y then (cellVal out.shape A B q).or (lookup out.blocks q)
        else lookup out.blocks q := by
  have hty : (tailKey 1 y).length = 1 := tailKey_length (List.length_pos_iff.2 hy)
  have hk1 : headKey 1 (x ++ tailKey 1 y) = x := headKey_append hty
  have hk2 : tailKey 1 (x ++ tailKey 1 y) = tailKey 1 y := tailKey_append hty
  have hcp : cellPairs A B (x ++ tailKey 1 y) = pairsList 1 (col 1 A x) (col 1 B y) := by
    rw [cellPairs, hk1, hk2, ← headKey_headKey, hk1, hxy, head_tail]
  rw [bmmCell]
  rcases findMatch_spec 1 _ _ _ (le_refl _) hA hB with ⟨h1, h2⟩ | ⟨a, as', b, bs', h1, h2, h3, h4, h5⟩
  · refine ⟨out.blocks, by rw [h1], hs, ?_⟩
    intro q
    split
    · rename_i hq
      rw [hq, cellVal, hcp, h2]; simp
    · rfl
  · rw [h1]
    have hne : cellPairs A B (x ++ tailKey 1 y) ≠ [] := by rw [hcp, h5]; simp
    obtain ⟨secs, β, n, m, s1, s2, s3, s4⟩ := hok.cell _ hne
    have hax : headKey 1 a.1 = x := by
      have := h2.subset (List.mem_cons_self)
      simpa using (List.mem_filter.1 this).2
    have hby : headKey 1 b.1 = y := by
      have := h3.subset (List.mem_cons_self)
      simpa using (List.mem_filter.1 this).2
    have hpl : pairsList 1 (a :: as') (b :: bs') = cellPairs A B (x ++ tailKey 1 y) := by
      rw [hcp, h5, pairsList_cons_left, List.map_cons, lookup_cons, if_pos h4.symm]; rfl
    have hAl : Allowed out.shape out.rule (x ++ tailKey 1 y) := ⟨secs, s1, s2⟩
    have hacc : bmmAcc β.prod (as'.length + bs'.length + 2) ⟨[β.prod, n, m], fun _ => 0⟩ (a :: as') (b :: bs') =
        .ok ⟨[β.prod, n, m], fun o => ((cellPairs A B (x ++ tailKey 1 y)).map fun p => cellEntry β.prod p o).sum⟩ := by
      rw [bmmAcc_eq _ _ _ _ _ (by simp; omega) (List.Pairwise.sublist h2.sublist hA) (List.Pairwise.sublist h3.sublist hB), hpl,
        foldlM_bmmProd _ _ rfl s4]
      simp
    have e2 := size2_append β n m
    have e1 := size1_append β n m
    unfold size2 at e2
    unfold size1 at e1
    obtain ⟨i1, i2⟩ := indexAssign_eq hs undef (x ++ tailKey 1 y) (⟨[β.prod, n, m], fun _ => 0⟩ : Blk R)
    have hb1 := blockAssign_eq (t := out) (⟨[β.prod, n, m], fun _ => 0⟩ : Blk R) hAl
    have hr : reshapeBlk (β ++ [n, m]) (⟨[β.prod, n, m], fun o => ((cellPairs A B (x ++ tailKey 1 y)).map fun p =>
        cellEntry β.prod p o).sum⟩ : Blk R) = .ok (cellBlk (β ++ [n, m]) (cellPairs A B (x ++ tailKey 1 y))) := by
      rw [reshapeBlk, if_pos (by simp), cellBlk]
      simp only [lead_append, size2_append, size1_append]
    obtain ⟨j1, j2⟩ := indexAssign_eq i1 undef (x ++ tailKey 1 y) (cellBlk (β ++ [n, m]) (cellPairs A B (x ++ tailKey 1 y)))
    refine ⟨_, ?_, j1, ?_⟩
    · simp only [hax, hby, blockSizes_eq s1, s3, bind, Except.bind, lead_append, e1, e2, hb1, hacc, hr]
      exact blockAssign_eq (t := { out with blocks := _ }) _ hAl
    · intro q
      rw [j2, i2]
      split
      · rename_i hq
        rw [hq, cellVal, if_neg hne, secSizes_eq s1, s3]; rfl
      · rfl

/-! ### The loops -/

omit [Semiring R] [AddCommMonoid G] [DecidableEq G] in
theorem headKey_mono {d : Nat} {k k' : List Nat} (hl : k.length = k'.length) (h : k ≤ k') : headKey d k ≤ headKey d k' := by
  by_contra hc
  rw [not_le] at hc
  refine absurd h (not_le.2 ?_)
  rw [← head_tail d k, ← head_tail d k', lex_append (by rw [headKey_length, headKey_length, hl])]
  exact Or.inl hc

omit [Semiring R] [AddCommMonoid G] [DecidableEq G] in
/-- The first elements that agree with the very first one but for the last `d` components. -/
theorem group_eq {N d : Nat} {b : List Nat × Blk R} {bs : FM (List Nat) (Blk R)} (hs : Sorted (b :: bs))
    (hl : ∀ e ∈ b :: bs, e.1.length = N) :
    (b :: bs).takeWhile (fun e => decide (headKey d e.1 = headKey d b.1)) = col d (b :: bs) (headKey d b.1) ∧
    (b :: bs).dropWhile (fun e => decide (headKey d e.1 = headKey d b.1)) =
      (b :: bs).filter (fun e => !decide (headKey d e.1 = headKey d b.1)) := by
  refine takeWhile_eq_filter ?_
  have hfirst : ∀ e ∈ b :: bs, b.1 ≤ e.1 := by
    intro e he
    rcases List.mem_cons.1 he with rfl | he
    · exact le_refl _
    · exact le_of_lt ((List.pairwise_cons.1 hs).1 e he)
  refine List.Pairwise.imp_of_mem ?_ hs
  intro u v hu hv huv hv'
  simp only [decide_eq_true_eq] at hv' ⊢
  refine le_antisymm ?_ (headKey_mono (by rw [hl b (by simp), hl u hu]) (hfirst u hu))
  rw [← hv']
  exact headKey_mono (by rw [hl u hu, hl v hv]) (le_of_lt huv)

omit [Semiring R] [AddCommMonoid G] [DecidableEq G] in
theorem col_tailSorted' {d : Nat} {l : FM (List Nat) (Blk R)} (hs : Sorted l) (x : List Nat) : TailSorted d (col d l x) := by
  have h1 : (col d l x).Pairwise fun a b => a.1 < b.1 := List.Pairwise.sublist List.filter_sublist hs
  refine List.Pairwise.imp_of_mem ?_ h1
  intro a b ha hb hab
  have ha' := of_decide_eq_true (List.mem_filter.mp ha).2
  have hb' := of_decide_eq_true (List.mem_filter.mp hb).2
  rw [← head_tail d a.1, ← head_tail d b.1, ha', hb', lex_append rfl] at hab
  rcases hab with h | h
  · exact absurd h (lt_irrefl _)
  · exact h.2

theorem cellVal_none {sh : Shape G} {A B : FM (List Nat) (Blk R)} {q : List Nat}
    (h : (∀ e ∈ A, headKey 1 e.1 ≠ headKey 1 q) ∨ ∀ e ∈ B, headKey 1 e.1 ≠ headKey 2 q ++ tailKey 1 q) :
    cellVal sh A B q = none := by
  have : cellPairs A B q = [] := by
    rcases h with h | h
    · have : col 1 A (headKey 1 q) = [] := by rw [col, List.filter_eq_nil_iff]; simpa using h
      rw [cellPairs, this]; rfl
    · have : col 1 B (headKey 2 q ++ tailKey 1 q) = [] := by rw [col, List.filter_eq_nil_iff]; simpa using h
      rw [cellPairs, this, pairsList_nil_right]
  rw [cellVal, if_pos this]

theorem bmmCols_eq {A B : FM (List Nat) (Blk R)} {N : Nat} (hN : 2 ≤ N) {x : List Nat} (hx : x.length + 1 = N)
    (hA : Sorted A) (hB : Sorted B) : ∀ (n : Nat) (out : BT G R) (T : FM (List Nat) (Blk R)), T.length ≤ n → Sorted T →
    (∀ e ∈ T, e.1.length = N) → (∀ e ∈ T, headKey 1 x ≤ headKey 2 e.1) →
    (∀ e ∈ T, headKey 2 e.1 = headKey 1 x → col 1 T (headKey 1 e.1) = col 1 B (headKey 1 e.1)) →
    CellsOk out.shape out.rule A B → Sorted out.blocks →
    ∃ m, bmmCols (headKey 1 x) (col 1 A x) n out T = .ok { out with blocks := m } ∧ Sorted m ∧
      ∀ q, lookup m q = if headKey 1 q = x ∧ ∃ e ∈ T, headKey 1 e.1 = headKey 2 q ++ tailKey 1 q
        then (cellVal out.shape A B q).or (lookup out.blocks q) else lookup out.blocks q
  | n, out, [], _, _, _, _, _, _, hs => ⟨out.blocks, by cases n <;> rfl, hs, by simp⟩
  | 0, out, b :: bs, h, _, _, _, _, _, _ => by simp at h
  | n + 1, out, b :: bs, h, hT, hl, hge, hcol, hok, hs => by
    have hqx : ∀ q : List Nat, headKey 1 q = x → (tailKey 1 q).length = 1 ∧ headKey 2 q = headKey 1 x := by
      intro q hq
      have : (headKey 1 q).length = x.length := by rw [hq]
      rw [headKey_length] at this
      exact ⟨tailKey_length (by omega), by rw [← headKey_headKey, hq]⟩
    rw [bmmCols]
    by_cases hb : headKey 2 b.1 = headKey 1 x
    · rw [if_pos hb]
      obtain ⟨g1, g2⟩ := group_eq (d := 1) hT hl
      have hbl := hl b (by simp)
      have hy : headKey 1 b.1 ≠ [] := by
        intro h0
        have := congrArg List.length h0
        rw [headKey_length] at this
        simp at this; omega
      have hx0 : x ≠ [] := by rintro rfl; simp at hx; omega
      obtain ⟨m, m1, m2, m3⟩ := bmmCell_eq hok hs (x := x) (y := headKey 1 b.1) (by rw [headKey_headKey, hb]) hx0 hy
        (col_tailSorted' hA x) (col_tailSorted' hB _)
      rw [g1, hcol b (by simp) hb, m1]
      simp only [bind, Except.bind]
      rw [g2]
      have hmem : ∀ e, e ∈ (b :: bs).filter (fun e => !decide (headKey 1 e.1 = headKey 1 b.1)) ↔
          e ∈ b :: bs ∧ headKey 1 e.1 ≠ headKey 1 b.1 := by
        intro e; rw [List.mem_filter]; simp
      obtain ⟨m', q1, q2, q3⟩ := bmmCols_eq hN hx hA hB n { out with blocks := m }
        ((b :: bs).filter fun e => !decide (headKey 1 e.1 = headKey 1 b.1))
        (by
          rw [List.filter_cons_of_neg (by simp)]
          have := List.length_filter_le (fun e : List Nat × Blk R => !decide (headKey 1 e.1 = headKey 1 b.1)) bs
          simp only [List.length_cons] at h
          omega)
        (List.Pairwise.sublist List.filter_sublist hT) (fun e he => hl e ((hmem e).1 he).1)
        (fun e he => hge e ((hmem e).1 he).1)
        (fun e he hbe => by
          obtain ⟨h1, h2⟩ := (hmem e).1 he
          rw [col_filter h2, hcol e h1 hbe]) hok m2
      refine ⟨m', q1, q2, ?_⟩
      intro q
      rw [q3, m3]
      dsimp only
      by_cases hq : headKey 1 q = x
      · obtain ⟨t1, t2⟩ := hqx q hq
        have hqq : q = x ++ tailKey 1 (headKey 1 b.1) ↔ headKey 1 b.1 = headKey 2 q ++ tailKey 1 q := by
          constructor
          · intro e
            have ht := tailKey_length (dl := 1) (List.length_pos_iff.2 hy)
            have e1 : tailKey 1 q = tailKey 1 (headKey 1 b.1) := by rw [e, tailKey_append ht]
            rw [e1, t2, ← hb, ← headKey_headKey, head_tail]
          · intro e
            rw [e, tailKey_append t1, ← hq, head_tail]
        by_cases hqb : headKey 1 b.1 = headKey 2 q ++ tailKey 1 q
        · rw [if_pos (hqq.2 hqb), if_pos (c := headKey 1 q = x ∧ ∃ e ∈ b :: bs, headKey 1 e.1 = headKey 2 q ++ tailKey 1 q) ⟨hq, b, by simp, hqb⟩, if_neg]
          rintro ⟨_, e, he, h3⟩
          exact ((hmem e).1 he).2 (h3.trans hqb.symm)
        · rw [if_neg (fun e => hqb (hqq.1 e))]
          congr 1
          simp only [eq_iff_iff]
          constructor
          · rintro ⟨h1, e, he, h3⟩
            exact ⟨h1, e, ((hmem e).1 he).1, h3⟩
          · rintro ⟨h1, e, he, h3⟩
            exact ⟨h1, e, (hmem e).2 ⟨he, fun h4 => hqb (h4.symm.trans h3)⟩, h3⟩
      · have hqn : q ≠ x ++ tailKey 1 (headKey 1 b.1) := by
          intro e
          exact hq (by rw [e, headKey_append (tailKey_length (List.length_pos_iff.2 hy))])
        rw [if_neg (fun h => hq h.1), if_neg hqn, if_neg (fun h => hq h.1)]
    · rw [if_neg hb]
      refine ⟨out.blocks, rfl, hs, ?_⟩
      intro q
      symm
      rw [ite_eq_right_iff]
      rintro ⟨hq, e, he, h3⟩
      exfalso
      obtain ⟨t1, t2⟩ := hqx q hq
      have h4 : headKey 2 e.1 = headKey 1 x := by rw [← headKey_headKey, h3, headKey_append t1, t2]
      have h5 : headKey 2 b.1 ≤ headKey 2 e.1 := by
        refine headKey_mono (by rw [hl b (by simp), hl e he]) ?_
        rcases List.mem_cons.1 he with rfl | he
        · exact le_refl _
        · exact le_of_lt ((List.pairwise_cons.1 hT).1 e he)
      exact hb (le_antisymm (h4 ▸ h5) (hge b (by simp)))

omit [Semiring R] [AddCommMonoid G] [DecidableEq G] in
/-- The search for two equal batches skips no pair. -/
theorem bmmAdvance_spec {N : Nat} : ∀ (n : Nat) (as bs : FM (List Nat) (Blk R)), as.length + bs.length ≤ n → Sorted as → Sorted bs →
    (∀ e ∈ as, e.1.length = N) → (∀ e ∈ bs, e.1.length = N) →
    (bmmAdvance n as bs = ([], []) ∧ ∀ x ∈ as, ∀ y ∈ bs, headKey 2 x.1 ≠ headKey 2 y.1) ∨
    ∃ D D' a as' b bs', bmmAdvance n as bs = (a :: as', b :: bs') ∧ as = D ++ a :: as' ∧ bs = D' ++ b :: bs' ∧
      headKey 2 a.1 = headKey 2 b.1 ∧ (∀ x ∈ D, ∀ y ∈ bs, headKey 2 x.1 ≠ headKey 2 y.1) ∧
      ∀ y ∈ D', ∀ x ∈ as, headKey 2 x.1 ≠ headKey 2 y.1
  | n, [], bs, _, _, _, _, _ => by left; cases n <;> simp [bmmAdvance]
  | n, a :: as, [], _, _, _, _, _ => by left; cases n <;> simp [bmmAdvance]
  | 0, a :: as, b :: bs, h, _, _, _, _ => by simp at h
  | n + 1, a :: as, b :: bs, h, ha, hb, la, lb => by
    simp only [List.length_cons] at h
    have fa : ∀ e ∈ a :: as, headKey 2 a.1 ≤ headKey 2 e.1 := by
      intro e he
      refine headKey_mono (by rw [la a (by simp), la e he]) ?_
      rcases List.mem_cons.1 he with rfl | he
      · exact le_refl _
      · exact le_of_lt ((List.pairwise_cons.1 ha).1 e he)
    have fb : ∀ e ∈ b :: bs, headKey 2 b.1 ≤ headKey 2 e.1 := by
      intro e he
      refine headKey_mono (by rw [lb b (by simp), lb e he]) ?_
      rcases List.mem_cons.1 he with rfl | he
      · exact le_refl _
      · exact le_of_lt ((List.pairwise_cons.1 hb).1 e he)
    rw [bmmAdvance]
    split
    · rename_i he
      right
      exact ⟨[], [], a, as, b, bs, rfl, rfl, rfl, he, by simp, by simp⟩
    · rename_i hne
      split
      · rename_i hlt
        have hno : ∀ y ∈ b :: bs, headKey 2 a.1 ≠ headKey 2 y.1 := fun y hy => ne_of_lt (lt_of_lt_of_le hlt (fb y hy))
        rcases bmmAdvance_spec n as (b :: bs) (by simp; omega) (List.pairwise_cons.1 ha).2 hb (fun e he => la e (by simp [he])) lb with
          ⟨h1, h2⟩ | ⟨D, D', a', as', b', bs', h1, h2, h3, h4, h5, h6⟩
        · left
          refine ⟨h1, ?_⟩
          intro x hx y hy
          rcases List.mem_cons.1 hx with rfl | hx
          · exact hno y hy
          · exact h2 x hx y hy
        · right
          refine ⟨a :: D, D', a', as', b', bs', h1, by rw [h2]; rfl, h3, h4, ?_, ?_⟩
          · intro x hx y hy
            rcases List.mem_cons.1 hx with rfl | hx
            · exact hno y hy
            · exact h5 x hx y hy
          · intro y hy x hx
            rcases List.mem_cons.1 hx with rfl | hx
            · exact hno y (by rw [h3]; simp [hy])
            · exact h6 y hy x hx
      · rename_i hge
        have hlt := lt_of_le_of_ne (not_lt.1 hge) (Ne.symm hne)
        have hno : ∀ x ∈ a :: as, headKey 2 x.1 ≠ headKey 2 b.1 := fun x hx => ne_of_gt (lt_of_lt_of_le hlt (fa x hx))
        rcases bmmAdvance_spec n (a :: as) bs (by simp; omega) ha (List.pairwise_cons.1 hb).2 la (fun e he => lb e (by simp [he])) with
          ⟨h1, h2⟩ | ⟨D, D', a', as', b', bs', h1, h2, h3, h4, h5, h6⟩
        · left
          refine ⟨h1, ?_⟩
          intro x hx y hy
          rcases List.mem_cons.1 hy with rfl | hy
          · exact hno x hx
          · exact h2 x hx y hy
        · right
          refine ⟨D, b :: D', a', as', b', bs', h1, h2, by rw [h3]; rfl, h4, ?_, ?_⟩
          · intro x hx y hy
            rcases List.mem_cons.1 hy with rfl | hy
            · exact hno x (by rw [h2]; simp [hx])
            · exact h5 x hx y hy
          · intro y hy x hx
            rcases List.mem_cons.1 hy with rfl | hy
            · exact hno x hx
            · exact h6 y hy x hx

omit [Semiring R] [AddCommMonoid G] [DecidableEq G] in
theorem col_append_right {D T : FM (List Nat) (Blk R)} {x : List Nat} (h : ∀ e ∈ D, headKey 1 e.1 ≠ x) :
    col 1 (D ++ T) x = col 1 T x := by
  have : D.filter (fun e => decide (headKey 1 e.1 = x)) = [] := by rw [List.filter_eq_nil_iff]; simpa using h
  rw [col, List.filter_append, this]; rfl

theorem bmmRows_eq {A B : FM (List Nat) (Blk R)} {N : Nat} (hN : 2 ≤ N) (hA : Sorted A) (hB : Sorted B)
    (hlB : ∀ e ∈ B, e.1.length = N) : ∀ (n : Nat) (out : BT G R) (T U D : FM (List Nat) (Blk R)), T.length + 1 ≤ n → Sorted T →
    (∀ e ∈ T, e.1.length = N) → (∀ e ∈ T, col 1 T (headKey 1 e.1) = col 1 A (headKey 1 e.1)) →
    B = D ++ U → (∀ y ∈ D, ∀ x ∈ T, headKey 2 x.1 ≠ headKey 2 y.1) →
    CellsOk out.shape out.rule A B → Sorted out.blocks →
    ∃ m, bmmRows n out T U = .ok { out with blocks := m } ∧ Sorted m ∧
      ∀ q, lookup m q = if ∃ e ∈ T, headKey 1 e.1 = headKey 1 q
        then (cellVal out.shape A B q).or (lookup out.blocks q) else lookup out.blocks q
  | 0, _, _, _, _, h, _, _, _, _, _, _, _ => by omega
  | n + 1, out, T, U, D, h, hT, hl, hcol, hBU, hD, hok, hs => by
    have hU : Sorted U := by rw [hBU] at hB; exact (List.pairwise_append.1 hB).2.1
    have hlU : ∀ e ∈ U, e.1.length = N := fun e he => hlB e (by rw [hBU]; simp [he])
    -- an element of `T` without partner gives nothing
    have hvain : ∀ x ∈ T, (∀ y ∈ U, headKey 2 x.1 ≠ headKey 2 y.1) → ∀ q, headKey 1 x.1 = headKey 1 q →
        cellVal out.shape A B q = none := by
      intro x hx hno q hq
      refine cellVal_none (Or.inr ?_)
      intro y hy h3
      have hlen : (headKey 1 q).length = N - 1 := by rw [← hq, headKey_length, hl x hx]
      rw [headKey_length] at hlen
      have h4 : headKey 2 y.1 = headKey 2 x.1 := by
        rw [← headKey_headKey, h3, headKey_append (tailKey_length (by omega)), ← headKey_headKey x.1, hq, headKey_headKey]
      rw [hBU] at hy
      rcases List.mem_append.1 hy with hy | hy
      · exact hD y hy x hx h4.symm
      · exact hno y hy h4.symm
    rw [bmmRows]
    rcases bmmAdvance_spec _ T U (le_refl _) hT hU hl hlU with ⟨h1, h2⟩ | ⟨E, F, a, as, b, bs, h1, h2, h3, h4, h5, h6⟩
    · rw [h1]
      refine ⟨out.blocks, rfl, hs, ?_⟩
      intro q
      symm
      rw [ite_eq_right_iff]
      rintro ⟨x, hx, hq⟩
      rw [hvain x hx (h2 x hx) q hq]; rfl
    · rw [h1]
      dsimp only
      have hTa : Sorted (a :: as) := by rw [h2] at hT; exact (List.pairwise_append.1 hT).2.1
      have hla : ∀ e ∈ a :: as, e.1.length = N := fun e he => hl e (by rw [h2]; exact List.mem_append_right _ he)
      have hUb : Sorted (b :: bs) := by rw [h3] at hU; exact (List.pairwise_append.1 hU).2.1
      have hlb : ∀ e ∈ b :: bs, e.1.length = N := fun e he => hlU e (by rw [h3]; exact List.mem_append_right _ he)
      have haT : a ∈ T := by rw [h2]; simp
      obtain ⟨g1, g2⟩ := group_eq (d := 1) hTa hla
      have hE : ∀ e ∈ a :: as, headKey 2 e.1 = headKey 2 b.1 → ∀ x ∈ E, headKey 1 x.1 ≠ headKey 1 e.1 := by
        intro e _ he x hx hxe
        refine h5 x hx b (by rw [h3]; simp) ?_
        rw [← headKey_headKey, hxe, headKey_headKey, he]
      have hEn : ∀ x ∈ E, ∀ e ∈ a :: as, headKey 1 x.1 = headKey 1 e.1 → ∀ y ∈ U, headKey 2 e.1 ≠ headKey 2 y.1 := by
        intro x hx e _ hxe y hy he
        refine h5 x hx y hy ?_
        rw [← headKey_headKey, hxe, headKey_headKey, he]
      have hrow : col 1 (a :: as) (headKey 1 a.1) = col 1 A (headKey 1 a.1) := by
        rw [← hcol a haT, h2, col_append_right (hE a (by simp) h4)]
      have hxlen : (headKey 1 a.1).length + 1 = N := by rw [headKey_length, hla a (by simp)]; omega
      have hbat : headKey 1 (headKey 1 a.1) = headKey 2 b.1 := by rw [headKey_headKey, h4]
      obtain ⟨m, m1, m2, m3⟩ := bmmCols_eq hN hxlen hA hB (b :: bs).length out (b :: bs) (le_refl _) hUb hlb
        (by
          intro e he
          rw [hbat]
          refine headKey_mono (by rw [hlb b (by simp), hlb e he]) ?_
          rcases List.mem_cons.1 he with rfl | he
          · exact le_refl _
          · exact le_of_lt ((List.pairwise_cons.1 hUb).1 e he))
        (by
          intro e he hbe
          rw [hbat] at hbe
          rw [hBU, h3, ← List.append_assoc, col_append_right]
          intro y hy hye
          have hye2 : headKey 2 y.1 = headKey 2 a.1 := by rw [← headKey_headKey, hye, headKey_headKey, hbe, h4]
          rcases List.mem_append.1 hy with hy | hy
          · exact hD y hy a haT hye2.symm
          · exact h6 y hy a haT hye2.symm) hok hs
      rw [hbat] at m1
      rw [g1, hrow, m1]
      simp only [bind, Except.bind]
      rw [g2]
      have hmem : ∀ e, e ∈ (a :: as).filter (fun e => !decide (headKey 1 e.1 = headKey 1 a.1)) ↔
          e ∈ a :: as ∧ headKey 1 e.1 ≠ headKey 1 a.1 := by
        intro e; rw [List.mem_filter]; simp
      have hTl : T.length = E.length + (as.length + 1) := by rw [h2]; simp
      -- elements of the rest with the row of a skipped one are taken care of apart
      obtain ⟨m', q1, q2, q3⟩ := bmmRows_eq hN hA hB hlB n { out with blocks := m }
        ((a :: as).filter fun e => !decide (headKey 1 e.1 = headKey 1 a.1)) (b :: bs) (D ++ F)
        (by
          rw [List.filter_cons_of_neg (by simp)]
          have := List.length_filter_le (fun e : List Nat × Blk R => !decide (headKey 1 e.1 = headKey 1 a.1)) as
          omega)
        (List.Pairwise.sublist List.filter_sublist hTa) (fun e he => hla e ((hmem e).1 he).1)
        (by
          intro e he
          obtain ⟨k1, k2⟩ := (hmem e).1 he
          rw [col_filter k2, ← hcol e (by rw [h2]; exact List.mem_append_right _ k1), h2, col_append_right]
          -- a skipped element is before `a`, so its row cannot come back after `a`
          intro x hx hxe
          have o1 : x.1 < a.1 := by
            rw [h2] at hT
            exact (List.pairwise_append.1 hT).2.2 x hx a (by simp)
          have o2 : a.1 ≤ e.1 := by
            rcases List.mem_cons.1 k1 with rfl | k1
            · exact le_refl _
            · exact le_of_lt ((List.pairwise_cons.1 hTa).1 e k1)
          have hxT : x ∈ T := by rw [h2]; simp [hx]
          have o3 := headKey_mono (d := 1) (by rw [hl x hxT, hl a haT]) (le_of_lt o1)
          have o4 := headKey_mono (d := 1) (by rw [hl a haT, hla e k1]) o2
          rw [hxe] at o3
          exact k2 (le_antisymm o3 o4))
        (by rw [hBU, h3, List.append_assoc])
        (by
          intro y hy x hx
          obtain ⟨k1, _⟩ := (hmem x).1 hx
          have hxT : x ∈ T := by rw [h2]; exact List.mem_append_right _ k1
          rcases List.mem_append.1 hy with hy | hy
          · exact hD y hy x hxT
          · exact h6 y hy x hxT) hok m2
      refine ⟨m', q1, q2, ?_⟩
      intro q
      rw [q3]
      dsimp only
      by_cases hqa : headKey 1 q = headKey 1 a.1
      · rw [if_neg (by
          rintro ⟨e, he, h7⟩
          exact ((hmem e).1 he).2 (h7.trans hqa)), if_pos (c := ∃ e ∈ T, headKey 1 e.1 = headKey 1 q) ⟨a, haT, hqa.symm⟩, m3]
        by_cases hex : ∃ e ∈ b :: bs, headKey 1 e.1 = headKey 2 q ++ tailKey 1 q
        · rw [if_pos ⟨hqa, hex⟩]
        · rw [if_neg (fun h => hex h.2), cellVal_none (Or.inr ?_)]
          · rfl
          · intro y hy h7
            have hlen : (headKey 1 q).length = N - 1 := by rw [hqa, headKey_length, hl a haT]
            rw [headKey_length] at hlen
            have h8 : headKey 2 y.1 = headKey 2 a.1 := by
              rw [← headKey_headKey, h7, headKey_append (tailKey_length (by omega)), ← headKey_headKey a.1, ← hqa, headKey_headKey]
            rw [hBU, h3] at hy
            rcases List.mem_append.1 hy with hy | hy
            · exact hD y hy a haT h8.symm
            · rcases List.mem_append.1 hy with hy | hy
              · exact h6 y hy a haT h8.symm
              · exact hex ⟨y, hy, h7⟩
      · rw [m3, if_neg (c := headKey 1 q = headKey 1 a.1 ∧ _) (fun h => hqa h.1)]
        by_cases hex : ∃ e ∈ (a :: as).filter (fun e => !decide (headKey 1 e.1 = headKey 1 a.1)), headKey 1 e.1 = headKey 1 q
        · rw [if_pos hex]
          obtain ⟨e, he, h7⟩ := hex
          rw [if_pos ⟨e, by rw [h2]; exact List.mem_append_right _ ((hmem e).1 he).1, h7⟩]
        · rw [if_neg hex]
          by_cases hex2 : ∃ e ∈ T, headKey 1 e.1 = headKey 1 q
          · rw [if_pos hex2]
            obtain ⟨e, he, h7⟩ := hex2
            have heE : e ∈ E := by
              rw [h2] at he
              rcases List.mem_append.1 he with he | he
              · exact he
              · exact absurd ⟨e, (hmem e).2 ⟨he, fun h8 => hqa (h7.symm.trans h8)⟩, h7⟩ hex
            rw [hvain e he (fun y hy => h5 e heE y hy) q h7]; rfl
          · rw [if_neg hex2]

end QuantiT.BT
