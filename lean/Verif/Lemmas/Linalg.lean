import Verif.Model.Linalg
import Verif.Spec.Linalg
import Verif.Lemmas.Contract
import Verif.Lemmas.Sums
import Mathlib.Data.List.TakeWhile
/-
Collecting the blocks of a tensor into dense matrices.
-/
namespace QuantiT
namespace BT
open Spec
variable {G R : Type}

theorem app_lt (o l m : List Nat) : (o ++ l < o ++ m) ↔ l < m := by
  induction o with
  | nil => rfl
  | cons a o ih => rw [List.cons_append, List.cons_append, List.cons_lt_cons_iff]; simp [ih]

theorem app_lt' : ∀ {o o' : List Nat} {l m : List Nat}, o.length = o'.length → o ++ l < o' ++ m → o < o' ∨ o = o'
  | [], [], _, _, _, _ => Or.inr rfl
  | a :: o, b :: o', l, m, h, hlt => by
    rw [List.cons_append, List.cons_append, List.cons_lt_cons_iff] at hlt
    rcases hlt with h1 | ⟨rfl, h1⟩
    · exact Or.inl (List.cons_lt_cons_iff.2 (Or.inl h1))
    · rcases app_lt' (by simpa using h) h1 with h2 | rfl
      · exact Or.inl (List.cons_lt_cons_iff.2 (Or.inr ⟨rfl, h2⟩))
      · exact Or.inr rfl

theorem pair_lt {i j i' j' : Nat} : ([i, j] : List Nat) < [i', j'] ↔ i < i' ∨ i = i' ∧ j < j' := by
  rw [List.cons_lt_cons_iff, List.cons_lt_cons_iff]
  simp

/-! ### Sorting -/

/-- Order of the blocks after sorting: by charges, then by index. -/
def TagBefore [LinearOrder G] (a b : Tagged G R) : Prop :=
  a.row < b.row ∨ (a.row = b.row ∧ (a.col < b.col ∨ (a.col = b.col ∧ a.key < b.key)))

theorem tagBefore_trans [LinearOrder G] {a b c : Tagged G R} (h1 : TagBefore a b) (h2 : TagBefore b c) : TagBefore a c := by
  unfold TagBefore at *
  rcases h1 with h1 | ⟨e1, h1⟩
  · rcases h2 with h2 | ⟨e2, _⟩
    · exact Or.inl (h1.trans h2)
    · exact Or.inl (e2 ▸ h1)
  · rcases h2 with h2 | ⟨e2, h2⟩
    · exact Or.inl (e1 ▸ h2)
    · refine Or.inr ⟨e1.trans e2, ?_⟩
      rcases h1 with h1 | ⟨f1, h1⟩
      · rcases h2 with h2 | ⟨f2, _⟩
        · exact Or.inl (h1.trans h2)
        · exact Or.inl (f2 ▸ h1)
      · rcases h2 with h2 | ⟨f2, h2⟩
        · exact Or.inl (f1 ▸ h2)
        · exact Or.inr ⟨f1.trans f2, h1.trans h2⟩

theorem tagBefore_of_not_lt [LinearOrder G] {a b : Tagged G R} (h : tagLt b a = false) (hk : a.key < b.key) : TagBefore a b := by
  simp only [tagLt, Bool.or_eq_false_iff, Bool.and_eq_false_iff, decide_eq_false_iff_not, not_lt] at h
  unfold TagBefore
  rcases lt_or_eq_of_le h.1 with h1 | h1
  · exact Or.inl h1
  · refine Or.inr ⟨h1, ?_⟩
    rcases h.2 with h2 | h2
    · exact absurd h1.symm h2
    · rcases lt_or_eq_of_le h2 with h3 | h3
      · exact Or.inl h3
      · exact Or.inr ⟨h3, hk⟩

theorem tagBefore_of_lt [LinearOrder G] {a b : Tagged G R} (h : tagLt a b = true) : TagBefore a b := by
  simp only [tagLt, Bool.or_eq_true, Bool.and_eq_true, decide_eq_true_eq] at h
  unfold TagBefore
  tauto

theorem orderedInsert_before [LinearOrder G] (a : Tagged G R) : ∀ (l : List (Tagged G R)), l.Pairwise TagBefore →
    (∀ b ∈ l, a.key < b.key) → (l.orderedInsert (fun a b => tagLt b a = false) a).Pairwise TagBefore
  | [], _, _ => by simp
  | b :: l, hl, hk => by
    rw [List.orderedInsert_cons]
    obtain ⟨h1, h2⟩ := List.pairwise_cons.1 hl
    split
    · rename_i hab
      have hTb := tagBefore_of_not_lt hab (hk b (by simp))
      refine List.pairwise_cons.2 ⟨?_, hl⟩
      intro c hc
      rcases List.mem_cons.1 hc with rfl | hc
      · exact hTb
      · exact tagBefore_trans hTb (h1 c hc)
    · rename_i hab
      refine List.pairwise_cons.2 ⟨?_, orderedInsert_before a l h2 fun c hc => hk c (by simp [hc])⟩
      intro c hc
      rcases (List.mem_orderedInsert _).1 hc with rfl | hc
      · exact tagBefore_of_lt (by simpa using hab)
      · exact h1 c hc

theorem insertionSort_before [LinearOrder G] : ∀ (l : List (Tagged G R)), (l.Pairwise fun a b => a.key < b.key) →
    (l.insertionSort fun a b => tagLt b a = false).Pairwise TagBefore
  | [], _ => by simp
  | a :: l, h => by
    obtain ⟨h1, h2⟩ := List.pairwise_cons.1 h
    rw [List.insertionSort_cons]
    exact orderedInsert_before a _ (insertionSort_before l h2) fun b hb => h1 b ((List.mem_insertionSort _).1 hb)

/-! ### Cutting -/

theorem cutRuns_nil {α : Type} (same : α → α → Bool) : cutRuns same [] = [] := rfl

theorem cutGo_eq {α : Type} (same : α → α → Bool) (first : α) : ∀ (l cur : List α),
    cutGo same first cur l = (cur.reverse ++ l.takeWhile (same first)) :: cutRuns same (l.dropWhile (same first))
  | [], cur => by simp [cutGo, cutRuns]
  | b :: l, cur => by
    by_cases h : same first b = true
    · simp only [cutGo, h, if_true, List.takeWhile_cons, List.dropWhile_cons]
      rw [cutGo_eq same first l]
      simp
    · simp only [cutGo, h, List.takeWhile_cons, List.dropWhile_cons]
      simp [cutRuns]

theorem cutRuns_cons {α : Type} (same : α → α → Bool) (a : α) (l : List α) :
    cutRuns same (a :: l) = (a :: l.takeWhile (same a)) :: cutRuns same (l.dropWhile (same a)) := by
  rw [cutRuns, cutGo_eq]
  rfl

theorem cutRuns_spec {α : Type} {same : α → α → Bool} {T : α → α → Prop}
    (hrefl : ∀ a, same a a = true) (hsymm : ∀ a b, same a b = true → same b a = true)
    (htrans : ∀ a b c, same a b = true → same b c = true → same a c = true)
    (l : List α) (hl : l.Pairwise T) (hconv : ∀ a ∈ l, ∀ b ∈ l, ∀ c ∈ l, T a b → T b c → same a c = true → same a b = true) :
    (cutRuns same l).flatten = l ∧ (∀ g ∈ cutRuns same l, g ≠ [] ∧ ∀ x ∈ g, ∀ y ∈ g, same x y = true) ∧
      (cutRuns same l).Pairwise fun g g' => ∀ x ∈ g, ∀ y ∈ g', same x y = false := by
  induction hn : l.length using Nat.strong_induction_on generalizing l with
  | _ n ih =>
    cases l with
    | nil => simp [cutRuns_nil]
    | cons a l =>
      obtain ⟨h1, h2⟩ := List.pairwise_cons.1 hl
      have hsub := List.dropWhile_sublist (same a) (l := l)
      have hlen := hsub.length_le
      obtain ⟨i1, i2, i3⟩ := ih _ (by rw [← hn, List.length_cons]; omega) (l.dropWhile (same a)) (h2.sublist hsub)
        (fun x hx y hy z hz => hconv x (by simp [hsub.subset hx]) y (by simp [hsub.subset hy]) z (by simp [hsub.subset hz])) rfl
      rw [cutRuns_cons]
      have hall : ∀ x ∈ a :: l.takeWhile (same a), same a x = true := by
        intro x hx
        rcases List.mem_cons.1 hx with rfl | hx
        · exact hrefl x
        · exact List.mem_takeWhile_imp hx
      refine ⟨?_, ?_, List.pairwise_cons.2 ⟨?_, i3⟩⟩
      · rw [List.flatten_cons, i1, List.cons_append, List.takeWhile_append_dropWhile]
      · intro g hg
        rcases List.mem_cons.1 hg with rfl | hg
        · exact ⟨by simp, fun x hx y hy => htrans x a y (hsymm _ _ (hall x hx)) (hall y hy)⟩
        · exact i2 g hg
      · intro g hg x hx y hy
        have hy' : y ∈ l.dropWhile (same a) := by rw [← i1]; exact List.mem_flatten.2 ⟨g, hg, hy⟩
        have hay : same a y = false := by
          rcases hd : l.dropWhile (same a) with _ | ⟨z, r⟩
          · rw [hd] at hy'; simp at hy'
          · have hz : same a z = false := by
              have := List.head?_dropWhile_not (same a) l
              rw [hd] at this
              simpa using this
            rw [hd] at hy'
            rcases List.mem_cons.1 hy' with rfl | hy'
            · exact hz
            · by_contra hne
              have hne : same a y = true := by simpa using hne
              have hzy : T z y := by
                have := h2.sublist hsub
                rw [hd] at this
                exact (List.pairwise_cons.1 this).1 y hy'
              have hzl : z ∈ l := hsub.subset (by rw [hd]; simp)
              have hyl : y ∈ l := hsub.subset (by rw [hd]; simp [hy'])
              have := hconv a (by simp) z (by simp [hzl]) y (by simp [hyl]) (h1 z hzl) hzy hne
              rw [hz] at this
              cases this
        by_contra hne
        have hne : same x y = true := by simpa using hne
        have := htrans a x y (hall x hx) hne
        rw [hay] at this
        cases this

/-! ### Row and column ranges -/

/-- Ranges made one after the other. -/
inductive Tiled (d : Dim G) : List Span → Nat → Prop
  | nil : Tiled d [] 0
  | snoc {l n i x} : Tiled d l n → d[i]? = some x → i ∉ l.map Prod.fst → Tiled d (l ++ [(i, n, n + x.1)]) (n + x.1)

theorem Tiled.tiles {d : Dim G} {l : List Span} {n : Nat} (h : Tiled d l n) : Tiles d n l := by
  induction h with
  | nil => exact ⟨by simp, by simp, by simp, by simp⟩
  | @snoc l n i x _ hx hi ih =>
    refine ⟨?_, ?_, ?_, ?_⟩
    · rw [List.map_append, List.nodup_append]
      refine ⟨ih.nodup, by simp, ?_⟩
      intro a ha b hb e
      simp at hb
      subst hb; subst e
      exact hi ha
    · intro s hs
      rcases List.mem_append.1 hs with hs | hs
      · obtain ⟨y, h1, h2, h3⟩ := ih.size s hs
        exact ⟨y, h1, h2, by omega⟩
      · simp at hs
        subst hs
        exact ⟨x, hx, rfl, le_refl _⟩
    · intro p hp
      by_cases hpn : p < n
      · obtain ⟨s, h1, h2, h3⟩ := ih.cover p hpn
        exact ⟨s, by simp [h1], h2, h3⟩
      · exact ⟨(i, n, n + x.1), by simp, by simp; omega, hp⟩
    · have hlt : ∀ s ∈ l, ∀ p, p < s.2.2 → p < n := by
        intro s hs p hp
        obtain ⟨y, _, _, h3⟩ := ih.size s hs
        omega
      intro s hs s' hs' p h1 h2 h3 h4
      rcases List.mem_append.1 hs with hs | hs <;> rcases List.mem_append.1 hs' with hs' | hs'
      · exact ih.disjoint s hs s' hs' p h1 h2 h3 h4
      · have := hlt s hs p h2
        simp at hs'; subst hs'; simp at h3; omega
      · have := hlt s' hs' p h4
        simp at hs; subst hs; simp at h1; omega
      · simp at hs hs'; rw [hs, hs']

theorem Tiles.perm {d : Dim G} {n : Nat} {l l' : List Span} (h : Tiles d n l) (hp : l.Perm l') : Tiles d n l' where
  nodup := (hp.map _).nodup_iff.1 h.nodup
  size s hs := h.size s (hp.mem_iff.2 hs)
  cover p hp' := by
    obtain ⟨s, h1, h2⟩ := h.cover p hp'
    exact ⟨s, hp.mem_iff.1 h1, h2⟩
  disjoint s hs s' hs' := h.disjoint s (hp.mem_iff.2 hs) s' (hp.mem_iff.2 hs')

/-- Section of the last but one dimension of a block. -/
def rowIx (a : Tagged G R) : Nat := a.key.getD (a.key.length - 2) 0
/-- Section of the last dimension of a block. -/
def colIx (a : Tagged G R) : Nat := a.key.getD (a.key.length - 1) 0

/-- Blocks that belong with the block index `o` of the first dimensions. -/
def InMat (dr dc : Dim G) (o ld : List Nat) (a : Tagged G R) : Prop :=
  ∃ i j x y, a.key = o ++ [i, j] ∧ dr[i]? = some x ∧ dc[j]? = some y ∧ a.blk.dims = ld ++ [x.1, y.1]

theorem getD_last2 {α : Type} (o : List α) (i j d : α) : (o ++ [i, j]).getD ((o ++ [i, j]).length - 2) d = i ∧
    (o ++ [i, j]).getD ((o ++ [i, j]).length - 1) d = j := by
  simp [List.getD]

theorem inMat_ix {dr dc : Dim G} {o ld : List Nat} {a : Tagged G R} (h : InMat dr dc o ld a) (hl : ld.length = o.length) :
    ∃ x y, a.key = o ++ [rowIx a, colIx a] ∧ dr[rowIx a]? = some x ∧ dc[colIx a]? = some y ∧ a.blk.dims = ld ++ [x.1, y.1] ∧
      a.blk.dims.getD (a.key.length - 1) 0 = y.1 ∧ a.blk.dims.getD (a.key.length - 2) 0 = x.1 := by
  obtain ⟨i, j, x, y, h1, h2, h3, h4⟩ := h
  have e := getD_last2 o i j 0
  have e' := getD_last2 ld x.1 y.1 0
  have hlen : (o ++ [i, j]).length = (ld ++ [x.1, y.1]).length := by simp [hl]
  unfold rowIx colIx
  rw [h1, e.1, e.2, h4, hlen]
  exact ⟨x, y, rfl, h2, h3, rfl, e'.2, e'.1⟩

/-- What the first loop of `compact_dense_single` keeps true. -/
structure SpanInv (dr dc : Dim G) (J I : Nat → Prop) (st : List Span × Nat × List Span × Nat × Nat) : Prop where
  cols : ∃ enc, enc.Perm st.1 ∧ Tiled dc enc st.2.1
  colsMem : ∀ j, j ∈ st.1.map Prod.fst ↔ J j
  rows : Tiled dr st.2.2.1 st.2.2.2.1
  rowsMem : ∀ i, i ∈ st.2.2.1.map Prod.fst ↔ I i
  le : ∀ i, I i → i ≤ st.2.2.2.2
  cur : I st.2.2.2.2

theorem span_step {dr dc : Dim G} {o ld : List Nat} (hl : ld.length = o.length) {J I : Nat → Prop}
    {st : List Span × Nat × List Span × Nat × Nat} (h : SpanInv dr dc J I st) {a : Tagged G R} (ha : InMat dr dc o ld a)
    (hge : st.2.2.2.2 ≤ rowIx a) :
    SpanInv dr dc (fun j => J j ∨ j = colIx a) (fun i => I i ∨ i = rowIx a) (spanStep st a) ∧ (spanStep st a).2.2.2.2 = rowIx a := by
  obtain ⟨cols, ca, rows, ra, cur⟩ := st
  obtain ⟨x, y, e1, e2, e3, e4, e5, e6⟩ := inMat_ix ha hl
  -- the columns
  have hc : ∃ cols' ca', (if cols.any (fun s => decide (s.1 = colIx a)) = true then (cols, ca)
      else (cols.takeWhile (fun s => decide (s.1 < colIx a)) ++ (colIx a, ca, ca + y.1) ::
        cols.dropWhile (fun s => decide (s.1 < colIx a)), ca + y.1)) = (cols', ca') ∧
      (∃ enc, enc.Perm cols' ∧ Tiled dc enc ca') ∧ ∀ j, j ∈ cols'.map Prod.fst ↔ J j ∨ j = colIx a := by
    obtain ⟨enc, p1, p2⟩ := h.cols
    simp only at p1 p2
    have hm := h.colsMem
    simp only at hm
    by_cases hany : cols.any (fun s => decide (s.1 = colIx a)) = true
    · refine ⟨cols, ca, by rw [if_pos hany], ⟨enc, p1, p2⟩, ?_⟩
      intro j
      rw [hm]
      constructor
      · exact Or.inl
      · rintro (h | rfl)
        · exact h
        · rw [← hm]
          simp only [List.any_eq_true, decide_eq_true_eq] at hany
          obtain ⟨s, s1, s2⟩ := hany
          exact List.mem_map.2 ⟨s, s1, s2⟩
    · have hperm : ((colIx a, ca, ca + y.1) :: cols).Perm (cols.takeWhile (fun s => decide (s.1 < colIx a)) ++
          (colIx a, ca, ca + y.1) :: cols.dropWhile (fun s => decide (s.1 < colIx a))) := by
        refine List.Perm.trans ?_ List.perm_middle.symm
        rw [List.takeWhile_append_dropWhile]
      refine ⟨_, _, if_neg hany, ⟨enc ++ [(colIx a, ca, ca + y.1)], ?_, .snoc p2 e3 ?_⟩, ?_⟩
      · exact ((List.perm_append_singleton _ _).trans (p1.cons _)).trans hperm
      · rw [(p1.map Prod.fst).mem_iff]
        simpa using hany
      · intro j
        rw [← (hperm.map Prod.fst).mem_iff]
        simp only [List.map_cons, List.mem_cons, hm]
        tauto
  obtain ⟨cols', ca', c1, c2, c3⟩ := hc
  have hstep : spanStep (cols, ca, rows, ra, cur) a =
      if cur ≠ rowIx a then (cols', ca', rows ++ [(rowIx a, ra, ra + x.1)], ra + x.1, rowIx a) else (cols', ca', rows, ra, cur) := by
    unfold spanStep
    simp only [e5, e6, show a.key.getD (a.key.length - 1) 0 = colIx a from rfl, show a.key.getD (a.key.length - 2) 0 = rowIx a from rfl,
      c1]
  rw [hstep]
  by_cases hne : cur ≠ rowIx a
  · rw [if_pos hne]
    refine ⟨⟨c2, c3, .snoc h.rows e2 ?_, ?_, ?_, Or.inr rfl⟩, rfl⟩
    · rw [h.rowsMem]
      intro hI
      have := h.le _ hI
      simp only at this hge
      omega
    · intro i
      simp only [List.map_append, List.mem_append, List.map_cons, List.map_nil, List.mem_singleton]
      rw [h.rowsMem]
    · rintro i (hi | rfl)
      · have := h.le _ hi
        simp only at this hge ⊢
        omega
      · exact le_refl _
  · rw [if_neg hne]
    have hne : cur = rowIx a := by simpa using hne
    refine ⟨⟨c2, c3, h.rows, ?_, ?_, Or.inl h.cur⟩, hne⟩
    · intro i
      rw [h.rowsMem]
      constructor
      · exact Or.inl
      · rintro (hi | rfl)
        · exact hi
        · rw [← hne]; exact h.cur
    · rintro i (hi | rfl)
      · exact h.le _ hi
      · simp only; omega

theorem SpanInv.congr {dr dc : Dim G} {J I J' I' : Nat → Prop} {st} (h : SpanInv dr dc J I st) (hJ : ∀ j, J j ↔ J' j)
    (hI : ∀ i, I i ↔ I' i) : SpanInv dr dc J' I' st :=
  ⟨h.cols, fun j => (h.colsMem j).trans (hJ j), h.rows, fun i => (h.rowsMem i).trans (hI i), fun i hi => h.le i ((hI i).2 hi),
    (hI _).1 h.cur⟩

theorem span_fold {dr dc : Dim G} {o ld : List Nat} (hl : ld.length = o.length) : ∀ (g : List (Tagged G R)) {J I : Nat → Prop}
    {st : List Span × Nat × List Span × Nat × Nat}, SpanInv dr dc J I st → (∀ a ∈ g, InMat dr dc o ld a) →
    (g.Pairwise fun a b => rowIx a ≤ rowIx b) → (∀ a ∈ g, st.2.2.2.2 ≤ rowIx a) →
    SpanInv dr dc (fun j => J j ∨ ∃ a ∈ g, j = colIx a) (fun i => I i ∨ ∃ a ∈ g, i = rowIx a) (g.foldl spanStep st)
  | [], J, I, st, h, _, _, _ => h.congr (by simp) (by simp)
  | a :: g, J, I, st, h, hg, hp, hge => by
    obtain ⟨h1, h2⟩ := span_step hl h (hg a (by simp)) (hge a (by simp))
    obtain ⟨p1, p2⟩ := List.pairwise_cons.1 hp
    have := span_fold hl g h1 (fun b hb => hg b (by simp [hb])) p2 (fun b hb => by rw [h2]; exact p1 b hb)
    rw [List.foldl_cons]
    exact this.congr (by intro j; simp; tauto) (by intro i; simp; tauto)

/-- Ranges in the order of their sections. -/
abbrev InOrder (l : List Span) : Prop := l.Pairwise fun s s' => s.1 < s'.1 ∧ s.2.2 ≤ s'.2.1

/-- The rows are met in the order of their sections, and so are the columns if no later row has a column before a new one. -/
theorem order_fold {dr dc : Dim G} {o ld : List Nat} (hl : ld.length = o.length) : ∀ (g pre : List (Tagged G R))
    (st : List Span × Nat × List Span × Nat × Nat), (∀ a ∈ g, InMat dr dc o ld a) → (g.Pairwise fun a b => rowIx a ≤ rowIx b) →
    (∀ a ∈ g, st.2.2.2.2 ≤ rowIx a) →
    (InOrder st.2.2.1 ∧ ∀ s ∈ st.2.2.1, s.1 ≤ st.2.2.2.2 ∧ s.2.2 ≤ st.2.2.2.1) →
    InOrder (g.foldl spanStep st).2.2.1 ∧
    ((InOrder st.1 ∧ (∀ s ∈ st.1, s.2.2 ≤ st.2.1) ∧ ∀ j, j ∈ st.1.map Prod.fst ↔ ∃ a ∈ pre, j = colIx a) →
      (∀ pre1 a g1, pre1 ++ a :: g1 = pre ++ g → (∃ b ∈ pre1, colIx b = colIx a) ∨ ∀ b ∈ pre1, colIx b < colIx a) →
      InOrder (g.foldl spanStep st).1)
  | [], _, st, _, _, _, hr => ⟨hr.1, fun hc _ => hc.1⟩
  | a :: g, pre, (cols, ca, rows, ra, cur), hg, hp, hge, hr => by
    obtain ⟨x, y, e1, e2, e3, e4, e5, e6⟩ := inMat_ix (hg a (by simp)) hl
    obtain ⟨p1, p2⟩ := List.pairwise_cons.1 hp
    have hcur := hge a (by simp)
    obtain ⟨st', hst'⟩ : ∃ st', spanStep (cols, ca, rows, ra, cur) a = st' := ⟨_, rfl⟩
    have hrow : (InOrder st'.2.2.1 ∧ ∀ s ∈ st'.2.2.1, s.1 ≤ st'.2.2.2.2 ∧ s.2.2 ≤ st'.2.2.2.1) ∧ st'.2.2.2.2 = rowIx a := by
      rw [← hst']
      unfold spanStep
      simp only [e5, e6, show a.key.getD (a.key.length - 1) 0 = colIx a from rfl, show a.key.getD (a.key.length - 2) 0 = rowIx a from rfl]
      simp only at hr hcur
      by_cases hne : cur ≠ rowIx a
      · simp only [if_pos hne]
        refine ⟨⟨List.pairwise_append.2 ⟨hr.1, List.pairwise_singleton _ _, ?_⟩, ?_⟩, trivial⟩
        · intro s hs s' hs'
          simp only [List.mem_singleton] at hs'
          subst hs'
          have := hr.2 s hs
          simp only
          omega
        · intro s hs
          rcases List.mem_append.1 hs with hs | hs
          · have := hr.2 s hs
            omega
          · simp only [List.mem_singleton] at hs
            subst hs
            simp
      · simp only [if_neg hne]
        exact ⟨hr, by simpa using hne⟩
    have ih := order_fold hl g (pre ++ [a]) st' (fun b hb => hg b (by simp [hb])) p2 (fun b hb => by rw [hrow.2]; exact p1 b hb) hrow.1
    rw [List.foldl_cons, hst']
    refine ⟨ih.1, fun hc hcond => ih.2 ?_ (by simpa using hcond)⟩
    have hnew := hcond pre a g rfl
    simp only at hc
    have hcols : st'.1 = (if cols.any (fun s => decide (s.1 = colIx a)) = true then (cols, ca)
      else (cols.takeWhile (fun s => decide (s.1 < colIx a)) ++ (colIx a, ca, ca + y.1) ::
        cols.dropWhile (fun s => decide (s.1 < colIx a)), ca + y.1)).1 ∧
      st'.2.1 = (if cols.any (fun s => decide (s.1 = colIx a)) = true then (cols, ca)
      else (cols.takeWhile (fun s => decide (s.1 < colIx a)) ++ (colIx a, ca, ca + y.1) ::
        cols.dropWhile (fun s => decide (s.1 < colIx a)), ca + y.1)).2 := by
      rw [← hst']
      unfold spanStep
      simp only [e5, e6, show a.key.getD (a.key.length - 1) 0 = colIx a from rfl, show a.key.getD (a.key.length - 2) 0 = rowIx a from rfl]
      by_cases hne : cur ≠ rowIx a
      · simp only [if_pos hne]; exact ⟨trivial, trivial⟩
      · simp only [if_neg hne]; exact ⟨trivial, trivial⟩
    rw [hcols.1, hcols.2]
    obtain ⟨c1, c2, c3⟩ := hc
    by_cases hany : cols.any (fun s => decide (s.1 = colIx a)) = true
    · rw [if_pos hany]
      refine ⟨c1, c2, ?_⟩
      intro j
      simp only [c3, List.mem_append, List.mem_singleton]
      constructor
      · rintro ⟨b, b1, b2⟩
        exact ⟨b, .inl b1, b2⟩
      · rintro ⟨b, b1 | rfl, b2⟩
        · exact ⟨b, b1, b2⟩
        · simp only [List.any_eq_true, decide_eq_true_eq] at hany
          obtain ⟨s, s1, s2⟩ := hany
          have := (c3 s.1).1 (List.mem_map.2 ⟨s, s1, rfl⟩)
          rwa [b2, ← s2]
    · rw [if_neg hany]
      have hlt : ∀ s ∈ cols, s.1 < colIx a := by
        rcases hnew with ⟨b, b1, b2⟩ | h
        · exfalso
          obtain ⟨s, s1, s2⟩ := List.mem_map.1 ((c3 (colIx b)).2 ⟨b, b1, rfl⟩)
          apply hany
          simp only [List.any_eq_true, decide_eq_true_eq]
          exact ⟨s, s1, by rw [s2, b2]⟩
        · intro s hs
          obtain ⟨b, b1, b2⟩ := (c3 s.1).1 (List.mem_map.2 ⟨s, hs, rfl⟩)
          rw [b2]
          exact h b b1
      have ht : cols.takeWhile (fun s => decide (s.1 < colIx a)) = cols := by
        rw [List.takeWhile_eq_self_iff]
        intro s hs
        simpa using hlt s hs
      have hd : cols.dropWhile (fun s => decide (s.1 < colIx a)) = [] := by
        rw [List.dropWhile_eq_nil_iff]
        intro s hs
        simpa using hlt s hs
      simp only [ht, hd]
      refine ⟨List.pairwise_append.2 ⟨c1, List.pairwise_singleton _ _, ?_⟩, ?_, ?_⟩
      · intro s hs s' hs'
        simp only [List.mem_singleton] at hs'
        subst hs'
        exact ⟨hlt s hs, c2 s hs⟩
      · intro s hs
        rcases List.mem_append.1 hs with hs | hs
        · have := c2 s hs
          omega
        · simp only [List.mem_singleton] at hs
          subst hs
          exact le_refl _
      · intro j
        simp only [List.map_append, List.mem_append, c3, List.map_cons, List.map_nil, List.mem_singleton]
        constructor
        · rintro (⟨b, b1, b2⟩ | rfl)
          · exact ⟨b, .inl b1, b2⟩
          · exact ⟨a, .inr rfl, rfl⟩
        · rintro ⟨b, b1 | rfl, b2⟩
          · exact .inl ⟨b, b1, b2⟩
          · exact .inr b2

/-! ### Filling the matrix -/

theorem inSlices_append : ∀ {sl sl' : List (Nat × Nat)} {e e' : List Nat}, sl.length = e.length →
    inSlices (sl ++ sl') (e ++ e') = (inSlices sl e && inSlices sl' e')
  | [], _, [], _, _ => by simp [inSlices]
  | s :: sl, sl', x :: e, e', h => by
    simp only [List.cons_append, inSlices, inSlices_append (sl := sl) (e := e) (by simpa using h), Bool.and_assoc]
  | [], _, _ :: _, _, h => by simp at h
  | _ :: _, _, [], _, h => by simp at h

theorem inSlices_full : ∀ {ns e : List Nat}, InRange e ns → inSlices (ns.map fun n => (0, n)) e = true
  | [], [], _ => rfl
  | n :: ns, x :: e, h => by
    obtain ⟨h1, h2⟩ := List.forall₂_cons.1 h
    simp only [List.map_cons, inSlices, inSlices_full h2, Bool.and_true]
    simp [h1]
  | [], _ :: _, h => by cases h
  | _ :: _, [], h => by cases h

theorem zipWith_full : ∀ {ns e : List Nat}, InRange e ns →
    List.zipWith (fun (x : Nat) (s : Nat × Nat) => x - s.1) e (ns.map fun n => (0, n)) = e
  | [], [], _ => rfl
  | n :: ns, x :: e, h => by
    obtain ⟨h1, h2⟩ := List.forall₂_cons.1 h
    simp [zipWith_full h2]
  | [], _ :: _, h => by cases h
  | _ :: _, [], h => by cases h

theorem inRange_length {e ns : List Nat} (h : InRange e ns) : e.length = ns.length := List.Forall₂.length_eq h

theorem find_span {d : Dim G} {n : Nat} {l : List Span} (h : Tiles d n l) {i : Nat} (hi : i ∈ l.map Prod.fst) :
    ∃ s, l.find? (fun s => decide (s.1 = i)) = some s ∧ s ∈ l ∧ s.1 = i := by
  obtain ⟨s, h1, h2⟩ := List.mem_map.1 hi
  rcases hf : l.find? (fun s => decide (s.1 = i)) with _ | s'
  · have := List.find?_eq_none.1 hf s h1
    simp [h2] at this
  · exact ⟨s', hf, List.mem_of_find?_eq_some hf, by simpa using List.find?_some hf⟩

theorem span_unique {d : Dim G} {n : Nat} {l : List Span} (h : Tiles d n l) {s s' : Span} (hs : s ∈ l) (hs' : s' ∈ l)
    (he : s.1 = s'.1) : s = s' := List.inj_on_of_nodup_map h.nodup hs hs' he

theorem put_fold {dr dc : Dim G} {o ld : List Nat} (hl : ld.length = o.length) {rows cols : List Span} {nr nc : Nat}
    (hr : Tiles dr nr rows) (hc : Tiles dc nc cols) : ∀ (g : List (Tagged G R)) (out : Blk R),
    (∀ a ∈ g, InMat dr dc o ld a ∧ rowIx a ∈ rows.map Prod.fst ∧ colIx a ∈ cols.map Prod.fst) →
    (g.Pairwise fun a b => a.key ≠ b.key) →
    ∃ m, g.foldlM (putTagged ld rows cols) out = .ok m ∧ m.dims = out.dims ∧
      ∀ e, InRange e ld → ∀ s ∈ rows, ∀ s' ∈ cols, ∀ r c, s.2.1 ≤ r → r < s.2.2 → s'.2.1 ≤ c → c < s'.2.2 →
        (∀ a ∈ g, a.key = o ++ [s.1, s'.1] → m.f (e ++ [r, c]) = a.blk.f (e ++ [r - s.2.1, c - s'.2.1])) ∧
        ((∀ a ∈ g, a.key ≠ o ++ [s.1, s'.1]) → m.f (e ++ [r, c]) = out.f (e ++ [r, c]))
  | [], out, _, _ => ⟨out, rfl, rfl, by intros; simp⟩
  | a :: g, out, hg, hp => by
    obtain ⟨ha, hra, hca⟩ := hg a (by simp)
    obtain ⟨p1, p2⟩ := List.pairwise_cons.1 hp
    obtain ⟨x, y, e1, e2, e3, e4, e5, e6⟩ := inMat_ix ha hl
    obtain ⟨sr, f1, f2, f3⟩ := find_span hr hra
    obtain ⟨sc, k1, k2, k3⟩ := find_span hc hca
    obtain ⟨x', x1, x2, x3⟩ := hr.size sr f2
    obtain ⟨y', y1, y2, y3⟩ := hc.size sc k2
    rw [f3, e2] at x1; cases x1
    rw [k3, e3] at y1; cases y1
    have hput : putTagged ld rows cols out a = .ok ⟨out.dims, fun e =>
        if inSlices ((ld.map fun n => (0, n)) ++ [sr.2, sc.2]) e then
          a.blk.f (List.zipWith (fun x s => x - s.1) e ((ld.map fun n => (0, n)) ++ [sr.2, sc.2])) else out.f e⟩ := by
      unfold putTagged
      simp only [show a.key.getD (a.key.length - 1) 0 = colIx a from rfl, show a.key.getD (a.key.length - 2) 0 = rowIx a from rfl,
        f1, k1]
      unfold indexPut
      rw [if_pos]
      rw [e4]
      simp [Function.comp_def, x2, y2]
    obtain ⟨m, m1, m2, m3⟩ := put_fold hl hr hc g ⟨out.dims, fun e =>
        if inSlices ((ld.map fun n => (0, n)) ++ [sr.2, sc.2]) e then
          a.blk.f (List.zipWith (fun x s => x - s.1) e ((ld.map fun n => (0, n)) ++ [sr.2, sc.2])) else out.f e⟩ (fun b hb => hg b (by simp [hb])) p2
    refine ⟨m, ?_, m2, ?_⟩
    · rw [List.foldlM_cons, hput]
      exact m1
    · intro e he s hs s' hs' r c h1 h2 h3 h4
      obtain ⟨n1, n2⟩ := m3 e he s hs s' hs' r c h1 h2 h3 h4
      have hin : inSlices ((ld.map fun n => (0, n)) ++ [sr.2, sc.2]) (e ++ [r, c]) = true ↔ s = sr ∧ s' = sc := by
        rw [inSlices_append (by simp [inRange_length he]), inSlices_full he]
        simp only [inSlices, Bool.true_and, Bool.and_eq_true, decide_eq_true_eq, and_true]
        constructor
        · rintro ⟨⟨q1, q2⟩, q3, q4⟩
          exact ⟨hr.disjoint s hs sr f2 r h1 h2 q1 q2, hc.disjoint s' hs' sc k2 c h3 h4 q3 q4⟩
        · rintro ⟨rfl, rfl⟩
          exact ⟨⟨h1, h2⟩, h3, h4⟩
      have hkey : a.key = o ++ [s.1, s'.1] ↔ s = sr ∧ s' = sc := by
        rw [e1, ← f3, ← k3]
        constructor
        · intro h
          have := List.append_cancel_left h
          simp only [List.cons.injEq, and_true] at this
          exact ⟨span_unique hr hs f2 this.1.symm, span_unique hc hs' k2 this.2.symm⟩
        · rintro ⟨rfl, rfl⟩; rfl
      constructor
      · intro b hb hbk
        rcases List.mem_cons.1 hb with rfl | hb
        · rw [n2 (fun b' hb' hk => p1 b' hb' (hbk.trans hk.symm))]
          obtain ⟨rfl, rfl⟩ := hkey.1 hbk
          simp only
          rw [if_pos (hin.2 ⟨rfl, rfl⟩), List.zipWith_append (by simp [inRange_length he]), zipWith_full he]
          rfl
        · exact n1 b hb hbk
      · intro hno
        rw [n2 fun b hb => hno b (by simp [hb])]
        simp only
        rw [if_neg (by rw [hin, ← hkey]; exact hno a (by simp))]

theorem span_order {dr dc : Dim G} {o ld : List Nat} (hl : ld.length = o.length) (a : Tagged G R) (l : List (Tagged G R))
    (hg : ∀ b ∈ a :: l, InMat dr dc o ld b) (hk : (a :: l).Pairwise fun a b => a.key < b.key) (h : Nat) :
    InOrder ((a :: l).foldl spanStep ([], 0, [(rowIx a, 0, h)], h, rowIx a)).2.2.1 ∧
    ((∀ b ∈ a :: l, ∀ c ∈ a :: l, ∃ d ∈ a :: l, rowIx d = rowIx b ∧ colIx d = colIx c) →
      InOrder ((a :: l).foldl spanStep ([], 0, [(rowIx a, 0, h)], h, rowIx a)).1) := by
  have hlt : ∀ b ∈ a :: l, ∀ c ∈ a :: l, b.key < c.key → rowIx b < rowIx c ∨ rowIx b = rowIx c ∧ colIx b < colIx c := by
    intro b hb c hc h
    obtain ⟨_, _, e1, _⟩ := inMat_ix (hg b hb) hl
    obtain ⟨_, _, e2, _⟩ := inMat_ix (hg c hc) hl
    rw [e1, e2, app_lt, pair_lt] at h
    exact h
  have hrow : (a :: l).Pairwise fun a b => rowIx a ≤ rowIx b :=
    hk.imp_of_mem fun {b c} hb hc h => by have := hlt b hb c hc h; omega
  have hord := order_fold hl (a :: l) [] ([], 0, [(rowIx a, 0, h)], h, rowIx a) hg hrow (by
    intro b hb
    rcases List.mem_cons.1 hb with rfl | hb
    · exact le_refl _
    · exact (List.pairwise_cons.1 hrow).1 b hb) ⟨List.pairwise_singleton _ _, by simp⟩
  refine ⟨hord.1, fun hfull => hord.2 ⟨List.Pairwise.nil, by simp, by simp⟩ (by
      intro pre1 c g1 he
      rw [List.nil_append] at he
      have hcm : c ∈ a :: l := by rw [← he]; simp
      have hpm : ∀ b ∈ pre1, b ∈ a :: l := fun b hb => by rw [← he]; simp [hb]
      have hk' := hk
      rw [← he] at hk'
      obtain ⟨q1, q2, q3⟩ := List.pairwise_append.1 hk'
      have hfirst : ∀ b ∈ a :: l, rowIx a ≤ rowIx b := by
        intro b hb
        rcases List.mem_cons.1 hb with rfl | hb
        · exact le_refl _
        · exact (List.pairwise_cons.1 hrow).1 b hb
      by_cases hrc : rowIx c = rowIx a
      · right
        intro b hb
        have h1 := hfirst b (hpm b hb)
        have h2 := hlt b (hpm b hb) c hcm (q3 b hb c (by simp))
        omega
      · left
        obtain ⟨d, d1, d2, d3⟩ := hfull a (by simp) c hcm
        have h1 := hfirst c hcm
        rw [← he] at d1
        rcases List.mem_append.1 d1 with d1 | d1
        · exact ⟨d, d1, d3⟩
        · exfalso
          rcases List.mem_cons.1 d1 with rfl | d1
          · exact hrc d2
          · have := hlt c hcm d (by rw [← he]; simp [d1]) ((List.pairwise_cons.1 q2).1 d d1)
            omega)⟩

theorem compactSingle_eq [Zero R] {dr dc : Dim G} {o ld : List Nat} (hl : ld.length = o.length) {g : List (Tagged G R)}
    (hne : g ≠ []) (hg : ∀ a ∈ g, InMat dr dc o ld a) (hk : g.Pairwise fun a b => a.key < b.key) :
    ∃ mt nr nc, compactSingle g = .ok mt ∧ mt.other = o ∧ mt.m.dims = ld ++ [nr, nc] ∧ Tiles dr nr mt.rows ∧ Tiles dc nc mt.cols ∧
      (∀ i, i ∈ mt.rows.map Prod.fst ↔ ∃ a ∈ g, i = rowIx a) ∧ (∀ j, j ∈ mt.cols.map Prod.fst ↔ ∃ a ∈ g, j = colIx a) ∧
      (InOrder mt.rows ∧ ((∀ a ∈ g, ∀ b ∈ g, ∃ c ∈ g, rowIx c = rowIx a ∧ colIx c = colIx b) → InOrder mt.cols)) ∧
      ∀ e, InRange e ld → ∀ s ∈ mt.rows, ∀ s' ∈ mt.cols, ∀ r c, s.2.1 ≤ r → r < s.2.2 → s'.2.1 ≤ c → c < s'.2.2 →
        (∀ a ∈ g, a.key = o ++ [s.1, s'.1] → mt.m.f (e ++ [r, c]) = a.blk.f (e ++ [r - s.2.1, c - s'.2.1])) ∧
        ((∀ a ∈ g, a.key ≠ o ++ [s.1, s'.1]) → mt.m.f (e ++ [r, c]) = 0) := by
  obtain ⟨a, l, rfl⟩ := List.exists_cons_of_ne_nil hne
  have hrow : (a :: l).Pairwise fun a b => rowIx a ≤ rowIx b := by
    refine hk.imp_of_mem ?_
    intro x y hx hy hlt
    obtain ⟨_, _, e1, _⟩ := inMat_ix (hg x hx) hl
    obtain ⟨_, _, e2, _⟩ := inMat_ix (hg y hy) hl
    rw [e1, e2, app_lt, pair_lt] at hlt
    omega
  obtain ⟨x, y, e1, e2, e3, e4, e5, e6⟩ := inMat_ix (hg a (by simp)) hl
  have h0 : SpanInv dr dc (fun _ => False) (fun i => i = rowIx a) ([], 0, [(rowIx a, 0, x.1)], x.1, rowIx a) := by
    refine ⟨⟨[], .nil, .nil⟩, by simp, ?_, by simp, by simp, rfl⟩
    have := Tiled.snoc (d := dr) (l := []) (n := 0) (i := rowIx a) .nil e2 (by simp)
    simpa using this
  have h1 := span_fold hl (a :: l) h0 hg hrow (by
    intro b hb
    rcases List.mem_cons.1 hb with rfl | hb
    · exact le_refl _
    · exact (List.pairwise_cons.1 hrow).1 b hb)
  have hord := span_order hl a l hg hk x.1
  obtain ⟨⟨cols, ca, rows, ra, cur⟩, hst⟩ : ∃ st, (a :: l).foldl spanStep ([], 0, [(rowIx a, 0, x.1)], x.1, rowIx a) = st := ⟨_, rfl⟩
  rw [hst] at h1 hord
  obtain ⟨⟨enc, c1, c2⟩, c3, r1, r2, _, _⟩ := h1
  simp only at c1 c2 c3 r1 r2
  have hcol : Tiles dc ca cols := Tiles.perm c2.tiles c1
  have hrows : Tiles dr ra rows := r1.tiles
  obtain ⟨m, m1, m2, m3⟩ := put_fold hl hrows hcol (a :: l) ⟨ld ++ [ra, ca], fun _ => 0⟩
    (fun b hb => ⟨hg b hb, (r2 _).2 (Or.inr ⟨b, hb, rfl⟩), (c3 _).2 (Or.inr ⟨b, hb, rfl⟩)⟩) (hk.imp fun h => ne_of_lt h)
  refine ⟨⟨m, o, rows, cols⟩, ra, ca, ?_, rfl, m2, hrows, hcol, ?_, ?_, hord, m3⟩
  · have t1 : a.blk.dims.take (a.key.length - 2) = ld := by
      rw [e4, e1]; simp [← hl]
    have t2 : a.key.take (a.key.length - 2) = o := by
      rw [e1]; simp
    show (do
      let (cols, ca, rows, ra, _) := (a :: l).foldl spanStep ([], 0, [(a.key.getD (a.key.length - 2) 0, 0,
        a.blk.dims.getD (a.key.length - 2) 0)], a.blk.dims.getD (a.key.length - 2) 0, a.key.getD (a.key.length - 2) 0)
      let m ← (a :: l).foldlM (putTagged (a.blk.dims.take (a.key.length - 2)) rows cols)
        ⟨a.blk.dims.take (a.key.length - 2) ++ [ra, ca], fun _ => 0⟩
      .ok ⟨m, a.key.take (a.key.length - 2), rows, cols⟩ : Res (Mat R)) = _
    rw [t1, t2, e6, show a.key.getD (a.key.length - 2) 0 = rowIx a from rfl, hst]
    simp only [m1, bind, Except.bind]
  · intro i
    rw [r2]
    simp only [List.mem_cons, exists_eq_or_imp]
    tauto
  · intro j
    rw [c3]
    simp

/-! ### The sorted blocks -/

/-- A block with the right charges. -/
def TagOk [AddCommMonoid G] (lead : Shape G) (dr dc : Dim G) (rule : G) (blocks : List (List Nat × Blk R)) (a : Tagged G R) : Prop :=
  ∃ o secs i j x y, sections lead o = some secs ∧ a.key = o ++ [i, j] ∧ dr[i]? = some x ∧ dc[j]? = some y ∧ a.row = x.2 ∧
    a.col = y.2 ∧ a.blk.dims = secs.map Prod.fst ++ [x.1, y.1] ∧ (a.key, a.blk) ∈ blocks ∧ charge secs + x.2 + y.2 = rule

theorem reorder_eq [AddCommMonoid G] [LinearOrder G] {t : BT G R} {lead : Shape G} {dr dc : Dim G} (hs : t.shape = lead ++ [dr, dc])
    (hc : Conserving t.shape t.rule t.blocks) :
    ∃ l, reorder t = .ok l ∧ l.Pairwise TagBefore ∧ (∀ a ∈ l, TagOk lead dr dc t.rule t.blocks a) ∧
      (∀ k b, (k, b) ∈ t.blocks → ∃ a ∈ l, a.key = k ∧ a.blk = b) ∧ (l.map Tagged.key).Nodup := by
  have key : ∀ kb ∈ t.blocks, ∃ a, tagBlock t.shape kb = .ok a ∧ TagOk lead dr dc t.rule t.blocks a ∧ a.key = kb.1 ∧ a.blk = kb.2 := by
    rintro ⟨k, b⟩ hkb
    obtain ⟨secs, h1, h2, h3⟩ := hc.block k b hkb
    rw [hs] at h1
    obtain ⟨o, b2, r1, r2, rfl, rfl, g1, g2⟩ := sections_append_inv h1
    obtain ⟨i, j, rfl⟩ : ∃ i j, b2 = [i, j] := by
      have := (sections_length g2).1
      match b2, this with
      | [i, j], _ => exact ⟨i, j, rfl⟩
    obtain ⟨x, r, x1, x2, rfl⟩ := sections_cons.1 g2
    obtain ⟨y, r, y1, y2, rfl⟩ := sections_cons.1 x2
    simp only [sections, Option.some.injEq] at y2
    subst y2
    have hlen := (sections_length g1).1
    refine ⟨⟨x.2, y.2, o ++ [i, j], b⟩, ?_, ⟨o, r1, i, j, x, y, g1, rfl, x1, y1, rfl, rfl, by simpa using h3, hkb, ?_⟩, rfl, rfl⟩
    · unfold tagBlock
      simp only [hs]
      rw [if_neg (by simp)]
      have a1 : (lead ++ [dr, dc])[(lead ++ [dr, dc]).length - 2]? = some dr := by simp
      have a2 : (lead ++ [dr, dc])[(lead ++ [dr, dc]).length - 1]? = some dc := by simp
      have a3 : (o ++ [i, j])[(lead ++ [dr, dc]).length - 2]? = some i := by simp [← hlen]
      have a4 : (o ++ [i, j])[(lead ++ [dr, dc]).length - 1]? = some j := by simp [← hlen]
      rw [a1, a2, a3, a4]
      simp only [x1, y1]
    · rw [← h2]
      simp [charge, add_assoc]
  have hrefl : ∀ l : List (List Nat × Blk R), (∀ kb ∈ l, kb ∈ t.blocks) → ∃ r, l.mapM (tagBlock t.shape) = .ok r ∧
      List.Forall₂ (fun kb a => TagOk lead dr dc t.rule t.blocks a ∧ a.key = kb.1 ∧ a.blk = kb.2) l r := by
    intro l
    induction l with
    | nil => intro _; exact ⟨[], rfl, .nil⟩
    | cons kb l ih =>
      intro h
      obtain ⟨a, a1, a2⟩ := key kb (h kb (by simp))
      obtain ⟨r, r1, r2⟩ := ih fun x hx => h x (by simp [hx])
      exact ⟨a :: r, by rw [List.mapM_cons, a1, r1]; rfl, .cons a2 r2⟩
  obtain ⟨r, r1, r2⟩ := hrefl t.blocks fun _ h => h
  have hmem : ∀ a ∈ r, TagOk lead dr dc t.rule t.blocks a := by
    intro a ha
    obtain ⟨n, hn⟩ := List.mem_iff_getElem?.1 ha
    obtain ⟨h1, h2⟩ := List.getElem?_eq_some_iff.1 hn
    have := r2.get (i := n) (by rw [r2.length_eq]; exact h1) h1
    simp only [List.get_eq_getElem, h2] at this
    exact this.1
  have hkeys : r.map Tagged.key = t.blocks.map Prod.fst := by
    have : ∀ {l : List (List Nat × Blk R)} {r : List (Tagged G R)}, List.Forall₂ (fun kb a => TagOk lead dr dc t.rule t.blocks a ∧
        a.key = kb.1 ∧ a.blk = kb.2) l r → r.map Tagged.key = l.map Prod.fst := by
      intro l r h
      induction h with
      | nil => rfl
      | cons h _ ih => simp [h.2.1, ih]
    exact this r2
  have hsort : r.Pairwise fun a b => a.key < b.key := by
    have h1 : (t.blocks.map Prod.fst).Pairwise (· < ·) := List.pairwise_map.2 hc.sorted
    rw [← hkeys] at h1
    exact List.pairwise_map.1 h1
  refine ⟨r.insertionSort fun a b => tagLt b a = false, ?_, insertionSort_before r hsort, ?_, ?_, ?_⟩
  · unfold reorder
    rw [r1]
    rfl
  · intro a ha
    exact hmem a ((List.mem_insertionSort _).1 ha)
  · intro k b hkb
    obtain ⟨n, hn⟩ := List.mem_iff_getElem?.1 hkb
    obtain ⟨h1, h2⟩ := List.getElem?_eq_some_iff.1 hn
    have := r2.get (i := n) h1 (by rw [← r2.length_eq]; exact h1)
    simp only [List.get_eq_getElem, h2] at this
    exact ⟨_, (List.mem_insertionSort _).2 (List.getElem_mem _), this.2⟩
  · rw [((List.perm_insertionSort _ r).map Tagged.key).nodup_iff, hkeys]
    exact nodup_of_sorted hc.sorted

theorem take_last2 {o : List Nat} {i j : Nat} : (o ++ [i, j]).take ((o ++ [i, j]).length - 2) = o := by simp

theorem sameMatrix_iff [DecidableEq G] {a b : Tagged G R} {o i j o' i' j'} (ha : a.key = o ++ [i, j]) (hb : b.key = o' ++ [i', j']) :
    sameMatrix a b = true ↔ o = o' ∧ a.col = b.col ∧ a.row = b.row := by
  unfold sameMatrix
  rw [ha, hb, take_last2, take_last2]
  simp [and_assoc]

theorem sameMatrix_convex [AddCommMonoid G] [LinearOrder G] {lead : Shape G} {dr dc : Dim G} {rule : G}
    {blocks : List (List Nat × Blk R)} {a b c : Tagged G R} (ha : TagOk lead dr dc rule blocks a) (hb : TagOk lead dr dc rule blocks b)
    (hc : TagOk lead dr dc rule blocks c) (h1 : TagBefore a b) (h2 : TagBefore b c) (h : sameMatrix a c = true) :
    sameMatrix a b = true := by
  obtain ⟨o, _, i, j, _, _, s1, k1, _⟩ := ha
  obtain ⟨o', _, i', j', _, _, s2, k2, _⟩ := hb
  obtain ⟨o'', _, i'', j'', _, _, s3, k3, _⟩ := hc
  have l1 := (sections_length s1).1
  have l2 := (sections_length s2).1
  rw [sameMatrix_iff k1 k3] at h
  obtain ⟨rfl, hcol, hrow⟩ := h
  rw [sameMatrix_iff k1 k2]
  unfold TagBefore at h1 h2
  rw [k1, k2] at h1
  rw [k2, k3] at h2
  have e1 : a.row = b.row := by
    rcases h1 with h1 | h1
    · rcases h2 with h2 | h2
      · exact absurd (h1.trans h2) (by rw [hrow]; exact lt_irrefl _)
      · rw [h2.1, ← hrow] at h1; exact absurd h1 (lt_irrefl _)
    · exact h1.1
  have e1' : b.row = c.row := by rw [← e1, hrow]
  have h1 : a.col < b.col ∨ a.col = b.col ∧ o ++ [i, j] < o' ++ [i', j'] := by
    rcases h1 with h1 | h1
    · rw [e1] at h1; exact absurd h1 (lt_irrefl _)
    · exact h1.2
  have h2 : b.col < c.col ∨ b.col = c.col ∧ o' ++ [i', j'] < o ++ [i'', j''] := by
    rcases h2 with h2 | h2
    · rw [e1'] at h2; exact absurd h2 (lt_irrefl _)
    · exact h2.2
  have e2 : a.col = b.col := by
    rcases h1 with h1 | h1
    · rcases h2 with h2 | h2
      · exact absurd (h1.trans h2) (by rw [hcol]; exact lt_irrefl _)
      · rw [h2.1, ← hcol] at h1; exact absurd h1 (lt_irrefl _)
    · exact h1.1
  have h1 : o ++ [i, j] < o' ++ [i', j'] := by
    rcases h1 with h1 | h1
    · rw [e2] at h1; exact absurd h1 (lt_irrefl _)
    · exact h1.2
  have h2 : o' ++ [i', j'] < o ++ [i'', j''] := by
    rcases h2 with h2 | h2
    · rw [← e2, hcol] at h2; exact absurd h2 (lt_irrefl _)
    · exact h2.2
  refine ⟨?_, e2, e1⟩
  rcases app_lt' (by omega) h1 with g1 | g1
  · rcases app_lt' (by omega) h2 with g2 | g2
    · exact absurd (g1.trans g2) (lt_irrefl _)
    · exact g2.symm
  · exact g1

end BT
end QuantiT
