import Verif.Lemmas.Sums
/-
The loops of `tensordot`: columns, matches and the list of output blocks.
-/
set_option linter.unusedSectionVars false
namespace QuantiT.BT
open QuantiT.Spec
variable {G R : Type}

abbrev KB (R : Type) := List Nat × Blk R

/-! ### Matches -/

/-- The pairs of blocks of two columns with the same contracted index, in order. -/
def pairsList (dl : Nat) (as bs : FM (List Nat) (Blk R)) : List (Blk R × Blk R) :=
  as.filterMap fun a => (lookup (bs.map fun b => (tailKey dl b.1, b.2)) (tailKey dl a.1)).map fun b => (a.2, b)

/-- Strictly increasing contracted indices. -/
def TailSorted (dl : Nat) (l : FM (List Nat) (Blk R)) : Prop := l.Pairwise fun a b => tailKey dl a.1 < tailKey dl b.1

theorem lookup_tail_none {dl : Nat} {bs : FM (List Nat) (Blk R)} {z : List Nat} (h : ∀ b ∈ bs, tailKey dl b.1 ≠ z) :
    lookup (bs.map fun b => (tailKey dl b.1, b.2)) z = none := by
  rw [lookup_eq_none]
  intro x hx
  obtain ⟨b, hb, rfl⟩ := List.mem_map.mp hx
  exact h b hb

theorem pairsList_nil_right (dl : Nat) (as : FM (List Nat) (Blk R)) : pairsList dl as [] = [] := by
  simp [pairsList, lookup_nil]

theorem pairsList_cons_left (dl : Nat) (a : KB R) (as bs : FM (List Nat) (Blk R)) :
    pairsList dl (a :: as) bs =
      ((lookup (bs.map fun b => (tailKey dl b.1, b.2)) (tailKey dl a.1)).map fun b => (a.2, b)).toList ++ pairsList dl as bs := by
  simp only [pairsList, List.filterMap_cons]
  generalize lookup (bs.map fun b => (tailKey dl b.1, b.2)) (tailKey dl a.1) = q
  cases q <;> rfl

theorem pairsList_drop_right {dl : Nat} {as : FM (List Nat) (Blk R)} {b : KB R} {bs : FM (List Nat) (Blk R)}
    (h : ∀ a ∈ as, tailKey dl b.1 ≠ tailKey dl a.1) : pairsList dl as (b :: bs) = pairsList dl as bs := by
  simp only [pairsList]
  apply List.filterMap_congr
  intro a ha
  rw [List.map_cons, lookup_cons, if_neg (h a ha)]

/-- `find_next_match` finds the first match and skips none. -/
theorem findMatch_spec (dl : Nat) : ∀ (n : Nat) (as bs : FM (List Nat) (Blk R)), as.length + bs.length ≤ n →
    TailSorted dl as → TailSorted dl bs →
    (findMatch dl n as bs = ([], []) ∧ pairsList dl as bs = []) ∨
    ∃ a as' b bs', findMatch dl n as bs = (a :: as', b :: bs') ∧ a :: as' <:+ as ∧ b :: bs' <:+ bs ∧
      tailKey dl a.1 = tailKey dl b.1 ∧ pairsList dl as bs = (a.2, b.2) :: pairsList dl as' (b :: bs')
  | n, [], bs, _, _, _ => by left; cases n <;> simp [findMatch, pairsList]
  | n, a :: as, [], _, _, _ => by left; cases n <;> simp [findMatch, pairsList_nil_right]
  | 0, a :: as, b :: bs, h, _, _ => by simp at h
  | n + 1, a :: as, b :: bs, h, ha, hb => by
    simp only [List.length_cons] at h
    obtain ⟨ha1, ha2⟩ := List.pairwise_cons.mp ha
    obtain ⟨hb1, hb2⟩ := List.pairwise_cons.mp hb
    simp only [findMatch]
    by_cases h1 : tailKey dl a.1 < tailKey dl b.1
    · rw [if_pos h1]
      have hnone : lookup ((b :: bs).map fun b => (tailKey dl b.1, b.2)) (tailKey dl a.1) = none := by
        apply lookup_tail_none
        intro x hx
        rcases List.mem_cons.mp hx with rfl | hx
        · exact ne_of_gt h1
        · exact ne_of_gt (h1.trans (hb1 x hx))
      rw [pairsList_cons_left, hnone]
      simp only [Option.map_none, Option.toList_none, List.nil_append]
      rcases findMatch_spec dl n as (b :: bs) (by simp only [List.length_cons]; omega) ha2 hb with h | ⟨a', as', b', bs', g1, g2, g3, g4, g5⟩
      · exact .inl h
      · exact .inr ⟨a', as', b', bs', g1, g2.trans (List.suffix_cons _ _), g3, g4, g5⟩
    · rw [if_neg h1]
      by_cases h2 : tailKey dl b.1 < tailKey dl a.1
      · rw [if_pos h2]
        have hd : pairsList dl (a :: as) (b :: bs) = pairsList dl (a :: as) bs := by
          apply pairsList_drop_right
          intro x hx
          rcases List.mem_cons.mp hx with rfl | hx
          · exact ne_of_lt h2
          · exact ne_of_lt (h2.trans (ha1 x hx))
        rw [hd]
        rcases findMatch_spec dl n (a :: as) bs (by simp only [List.length_cons]; omega) ha hb2 with h | ⟨a', as', b', bs', g1, g2, g3, g4, g5⟩
        · exact .inl h
        · exact .inr ⟨a', as', b', bs', g1, g2, g3.trans (List.suffix_cons _ _), g4, g5⟩
      · rw [if_neg h2]
        have he : tailKey dl a.1 = tailKey dl b.1 := le_antisymm (not_lt.mp h2) (not_lt.mp h1)
        refine .inr ⟨a, as, b, bs, rfl, List.suffix_refl _, List.suffix_refl _, he, ?_⟩
        rw [pairsList_cons_left, List.map_cons, lookup_cons, if_pos he.symm]
        rfl

theorem accumulate_eq [Semiring R] (dl : Nat) : ∀ (n : Nat) (acc : Blk R) (as bs : FM (List Nat) (Blk R)),
    as.length + 1 ≤ n → TailSorted dl as → TailSorted dl bs →
    accumulate dl n acc as bs = (pairsList dl as bs).foldlM addmm acc
  | 0, _, _, _, h, _, _ => by omega
  | n + 1, acc, as, bs, h, ha, hb => by
    simp only [accumulate]
    rcases findMatch_spec dl (as.length + bs.length) as bs (le_refl _) ha hb with
      ⟨h1, h2⟩ | ⟨a, as', b, bs', h1, h2, h3, h4, h5⟩
    · rw [h1, h2]; rfl
    · rw [h1, h5]
      simp only [List.foldlM_cons]
      congr 1
      funext acc'
      have hlen := h2.length_le
      simp only [List.length_cons] at hlen
      exact accumulate_eq dl n acc' as' (b :: bs') (by omega)
        (List.Pairwise.sublist (List.sublist_of_cons_sublist h2.sublist) ha) (List.Pairwise.sublist h3.sublist hb)

/-- What one pair of columns adds, from the list of matches. -/
def pairResult [AddCommMonoid G] [Semiring R] (out : BT G R) (idx : List Nat) (acc : FM (List Nat) (Blk R)) :
    List (Blk R × Blk R) → Res (FM (List Nat) (Blk R))
  | [] => .ok acc
  | p :: ps => do
    let sz ← blockSizes out idx
    let m ← mm p.1 p.2
    let m ← ps.foldlM addmm m
    let v ← reshapeBlk sz m
    .ok (acc ++ [(idx, v)])

/-- The work on one pair of columns in terms of the list of matches. -/
theorem pairStep_eq [AddCommMonoid G] [Semiring R] {dl : Nat} {out : BT G R} {ka kb : List Nat} {as bs acc : FM (List Nat) (Blk R)}
    (ha : TailSorted dl as) (hb : TailSorted dl bs) :
    pairStep dl out ka kb as bs acc =
      pairResult out (headKey dl ka ++ headKey dl kb) acc (pairsList dl as bs) := by
  simp only [pairStep]
  rcases findMatch_spec dl (as.length + bs.length) as bs (le_refl _) ha hb with
    ⟨h1, h2⟩ | ⟨a, as', b, bs', h1, h2, h3, h4, h5⟩
  · rw [h1, h2]; rfl
  · rw [h1, h5]
    simp only [pairResult]
    congr 1; funext sz
    congr 1; funext m
    rw [accumulate_eq dl (as'.length + 1) m as' (b :: bs') (le_refl _)
      (List.Pairwise.sublist (List.sublist_of_cons_sublist h2.sublist) ha) (List.Pairwise.sublist h3.sublist hb)]

/-! ### Columns -/

theorem lex_append {x y u v : List Nat} (h : x.length = y.length) : x ++ u < y ++ v ↔ x < y ∨ (x = y ∧ u < v) := by
  induction x generalizing y with
  | nil => cases y <;> simp_all
  | cons a x ih =>
    cases y with
    | nil => simp at h
    | cons b y =>
      have hab : ∀ {p q : List Nat}, a :: p < b :: q ↔ a < b ∨ a = b ∧ p < q := fun {p q} => List.cons_lt_cons_iff
      simp only [List.cons_append, hab, ih (by simpa using h), List.cons.injEq]
      constructor
      · rintro (h | ⟨h1, h2 | ⟨h2, h3⟩⟩)
        · exact .inl (.inl h)
        · exact .inl (.inr ⟨h1, h2⟩)
        · exact .inr ⟨⟨h1, h2⟩, h3⟩
      · rintro ((h | ⟨h1, h2⟩) | ⟨⟨h1, h2⟩, h3⟩)
        · exact .inl h
        · exact .inr ⟨h1, .inl h2⟩
        · exact .inr ⟨h1, .inr ⟨h2, h3⟩⟩

theorem head_tail (dl : Nat) (k : List Nat) : headKey dl k ++ tailKey dl k = k := List.take_append_drop _ _

theorem headKey_length {dl : Nat} {k : List Nat} : (headKey dl k).length = k.length - dl := by simp [headKey]

theorem tailKey_length {dl : Nat} {k : List Nat} (h : dl ≤ k.length) : (tailKey dl k).length = dl := by
  simp [tailKey]; omega

theorem headKey_append {dl : Nat} {x z : List Nat} (h : z.length = dl) : headKey dl (x ++ z) = x := by
  subst h; simp [headKey]

theorem tailKey_append {dl : Nat} {x z : List Nat} (h : z.length = dl) : tailKey dl (x ++ z) = z := by
  subst h; simp [tailKey]

/-- Among keys of the same length not before `k0`, those before `next_index(k0)` are those that agree with
`k0` outside the contracted dimensions. -/
theorem lt_nextIndex {dl : Nat} {k0 k : List Nat} (hne : k0 ≠ []) (hdl : dl ≤ k0.length) (hlen : k.length = k0.length)
    (hmax : ∀ c ∈ k, c < int64Max) (hle : k0 ≤ k) : k < nextIndex dl k0 ↔ headKey dl k = headKey dl k0 := by
  have hpos : 0 < k0.length := List.length_pos_iff.mpr hne
  simp only [nextIndex, if_neg hne]
  by_cases h0 : dl = 0
  · subst h0
    rw [if_pos rfl]
    have e0 : k0 = k0.dropLast ++ [k0.getD (k0.length - 1) 0] := by
      conv_lhs => rw [← List.dropLast_append_getLast hne]
      rw [List.getLast_eq_getElem]; simp [List.getD_eq_getElem?_getD, List.getElem?_eq_getElem (show k0.length - 1 < k0.length by omega)]
    have hkne : k ≠ [] := by rintro rfl; simp at hlen; omega
    have e1 : k = k.dropLast ++ [k.getD (k.length - 1) 0] := by
      conv_lhs => rw [← List.dropLast_append_getLast hkne]
      rw [List.getLast_eq_getElem]; simp [List.getD_eq_getElem?_getD, List.getElem?_eq_getElem (show k.length - 1 < k.length by omega)]
    have e2 : k0.set (k0.length - 1) (k0.getD (k0.length - 1) 0 + 1) = k0.dropLast ++ [k0.getD (k0.length - 1) 0 + 1] := by
      generalize k0.getD (k0.length - 1) 0 = c at e0
      rw [e0]
      simp
    have hl : k.dropLast.length = k0.dropLast.length := by simp [hlen]
    rw [e2]
    have hh : headKey 0 k = headKey 0 k0 ↔ k = k0 := by simp [headKey]
    rw [hh]
    constructor
    · intro hlt
      rcases eq_or_lt_of_le hle with h | h
      · exact h.symm
      · rw [e1, lex_append hl] at hlt
        rw [e0, e1, lex_append hl.symm] at h
        have c1 : ∀ p q : Nat, ([p] : List Nat) < [q] ↔ p < q := by intro p q; simp [List.cons_lt_cons_iff]
        rw [c1] at h hlt
        rcases h with h | ⟨h, h'⟩ <;> rcases hlt with g | ⟨g, g'⟩
        · exact absurd (h.trans g) (lt_irrefl _)
        · rw [g] at h; exact absurd h (lt_irrefl _)
        · rw [h] at g; exact absurd g (lt_irrefl _)
        · omega
    · rintro rfl
      conv_lhs => rw [e0]
      rw [lex_append rfl]
      right
      exact ⟨rfl, by simp [List.cons_lt_cons_iff]⟩
  · rw [if_neg h0]
    have hset : k0.set (k0.length - dl) int64Max = headKey dl k0 ++ (tailKey dl k0).set 0 int64Max := by
      conv_lhs => rw [← head_tail dl k0]
      have hl : (headKey dl k0 ++ tailKey dl k0).length - dl = (headKey dl k0).length := by rw [head_tail, headKey_length]
      rw [hl, List.set_append_right _ _ (le_refl _), Nat.sub_self]
    have htl : (tailKey dl k0).length = dl := tailKey_length hdl
    have htl' : (tailKey dl k).length = dl := tailKey_length (by omega)
    have hhl : (headKey dl k).length = (headKey dl k0).length := by simp [headKey_length, hlen]
    rcases ht0 : tailKey dl k0 with _ | ⟨c0, r0⟩
    · rw [ht0] at htl; simp at htl; omega
    rcases ht : tailKey dl k with _ | ⟨c, r⟩
    · rw [ht] at htl'; simp at htl'; omega
    have hc : c < int64Max := by
      apply hmax
      rw [← head_tail dl k, ht]; simp
    have hlt : c :: r < int64Max :: r0 := List.cons_lt_cons_iff.mpr (.inl hc)
    rw [hset, ht0, List.set_cons_zero]
    have hle' : ¬ (headKey dl k < headKey dl k0) := by
      intro h
      have : k < k0 := by
        rw [← head_tail dl k, ← head_tail dl k0, lex_append hhl]
        exact .inl h
      exact absurd this (not_lt.mpr hle)
    conv_lhs => rw [← head_tail dl k, ht]
    rw [lex_append hhl]
    constructor
    · rintro (h | h)
      · exact absurd h hle'
      · exact h.1
    · intro h; exact .inr ⟨h, hlt⟩

theorem takeWhile_eq_filter {α : Type} {p : α → Bool} {l : List α} (h : l.Pairwise fun a b => p b = true → p a = true) :
    l.takeWhile p = l.filter p ∧ l.dropWhile p = l.filter (fun x => !p x) := by
  induction l with
  | nil => simp
  | cons a l ih =>
    obtain ⟨h1, h2⟩ := List.pairwise_cons.mp h
    obtain ⟨e1, e2⟩ := ih h2
    by_cases ha : p a = true
    · simp [ha, e1, e2]
    · have : ∀ b ∈ l, p b = false := by
        intro b hb
        by_contra hc
        exact ha (h1 b hb (by simpa using hc))
      have e3 : l.filter p = [] := by simp; exact this
      have e4 : l.filter (fun x => !p x) = l := by simp; exact this
      simp only [Bool.not_eq_true] at ha
      simp [ha, e3, e4]

/-- Keys as the loops need them: strictly sorted, all of length `n`, components below the `int64_t` maximum. -/
structure Keyed (n : Nat) (l : FM (List Nat) (Blk R)) : Prop where
  sorted : Sorted l
  len : ∀ e ∈ l, e.1.length = n
  max : ∀ e ∈ l, ∀ c ∈ e.1, c < int64Max

theorem Keyed.filter {n : Nat} {l : FM (List Nat) (Blk R)} (h : Keyed n l) (p : KB R → Bool) : Keyed n (l.filter p) :=
  ⟨List.Pairwise.sublist List.filter_sublist h.sorted, fun e he => h.len e (List.mem_filter.mp he).1,
    fun e he => h.max e (List.mem_filter.mp he).1⟩

/-- The first column and the rest. -/
theorem column_eq {n dl : Nat} {b : KB R} {bs : FM (List Nat) (Blk R)} (hk : Keyed n (b :: bs)) (hn : 0 < n) (hdl : dl ≤ n) :
    (b :: bs).takeWhile (fun e => decide (e.1 < nextIndex dl b.1)) =
      (b :: bs).filter (fun e => decide (headKey dl e.1 = headKey dl b.1)) ∧
    (b :: bs).dropWhile (fun e => decide (e.1 < nextIndex dl b.1)) =
      (b :: bs).filter (fun e => !decide (headKey dl e.1 = headKey dl b.1)) := by
  have hb := hk.len b (by simp)
  have hne : b.1 ≠ [] := by intro h; rw [h] at hb; simp at hb; omega
  have hp : (b :: bs).Pairwise fun x y => decide (y.1 < nextIndex dl b.1) = true → decide (x.1 < nextIndex dl b.1) = true := by
    refine List.Pairwise.imp ?_ hk.sorted
    intro x y hxy h
    simp only [decide_eq_true_eq] at h ⊢
    exact hxy.trans h
  obtain ⟨e1, e2⟩ := takeWhile_eq_filter hp
  rw [e1, e2]
  have hiff : ∀ e ∈ b :: bs, decide (e.1 < nextIndex dl b.1) = decide (headKey dl e.1 = headKey dl b.1) := by
    intro e he
    apply decide_eq_decide.mpr
    refine lt_nextIndex hne (by omega) (by rw [hk.len e he, hb]) (hk.max e he) ?_
    rcases List.mem_cons.mp he with rfl | he
    · exact le_refl _
    · exact le_of_lt ((sorted_cons.mp hk.sorted).1 e he)
  constructor
  · exact List.filter_congr hiff
  · exact List.filter_congr fun e he => by rw [hiff e he]

/-- Outer indices of a list of blocks, in order of first appearance. -/
def heads (dl : Nat) : FM (List Nat) (Blk R) → List (List Nat)
  | [] => []
  | b :: bs => headKey dl b.1 :: heads dl (bs.filter fun e => !decide (headKey dl e.1 = headKey dl b.1))
termination_by l => l.length
decreasing_by
  refine Nat.lt_succ_of_le ?_
  rw [List.length_unattach]
  exact le_trans (List.length_filter_le _ _) (by simp)

theorem heads_cons (dl : Nat) (b : KB R) (bs : FM (List Nat) (Blk R)) :
    heads dl (b :: bs) = headKey dl b.1 :: heads dl ((b :: bs).filter fun e => !decide (headKey dl e.1 = headKey dl b.1)) := by
  rw [heads]; simp

theorem mem_heads (dl : Nat) : ∀ (n : Nat) (l : FM (List Nat) (Blk R)) (x : List Nat), l.length ≤ n →
    (x ∈ heads dl l ↔ ∃ e ∈ l, headKey dl e.1 = x)
  | _, [], x, _ => by simp [heads]
  | 0, _ :: _, _, h => by simp at h
  | n + 1, b :: bs, x, h => by
    rw [heads, List.mem_cons, mem_heads dl n _ x (le_trans (List.length_filter_le _ _) (by simpa using h))]
    constructor
    · rintro (rfl | ⟨e, he, rfl⟩)
      · exact ⟨b, by simp, rfl⟩
      · exact ⟨e, by simp [(List.mem_filter.mp he).1], rfl⟩
    · rintro ⟨e, he, rfl⟩
      by_cases hx : headKey dl e.1 = headKey dl b.1
      · exact .inl hx
      · right
        refine ⟨e, ?_, rfl⟩
        rcases List.mem_cons.mp he with rfl | he
        · exact absurd rfl hx
        · simp [he, hx]

theorem mem_heads_iff {dl : Nat} {l : FM (List Nat) (Blk R)} {x : List Nat} : x ∈ heads dl l ↔ ∃ e ∈ l, headKey dl e.1 = x :=
  mem_heads dl l.length l x (le_refl _)

theorem heads_nodup (dl : Nat) : ∀ (n : Nat) (l : FM (List Nat) (Blk R)), l.length ≤ n → (heads dl l).Nodup
  | _, [], _ => by simp [heads]
  | 0, _ :: _, h => by simp at h
  | n + 1, b :: bs, h => by
    rw [heads, List.nodup_cons]
    refine ⟨?_, heads_nodup dl n _ (le_trans (List.length_filter_le _ _) (by simpa using h))⟩
    rw [mem_heads_iff]
    rintro ⟨e, he, hx⟩
    have := (List.mem_filter.mp he).2
    simp [hx] at this

/-- The blocks with a given outer index. -/
def col (dl : Nat) (l : FM (List Nat) (Blk R)) (x : List Nat) : FM (List Nat) (Blk R) :=
  l.filter fun e => decide (headKey dl e.1 = x)

theorem col_filter {dl : Nat} {l : FM (List Nat) (Blk R)} {x y : List Nat} (h : x ≠ y) :
    col dl (l.filter fun e => !decide (headKey dl e.1 = y)) x = col dl l x := by
  simp only [col, List.filter_filter]
  apply List.filter_congr
  intro e _
  by_cases hx : headKey dl e.1 = x
  · simp [hx, h]
  · simp [hx]

theorem col_tailSorted {n dl : Nat} {l : FM (List Nat) (Blk R)} (hk : Keyed n l) (x : List Nat) :
    TailSorted dl (col dl l x) := by
  have h1 : (col dl l x).Pairwise fun a b => a.1 < b.1 := List.Pairwise.sublist List.filter_sublist hk.sorted
  refine List.Pairwise.imp_of_mem ?_ h1
  intro a b ha hb hab
  have ha' := of_decide_eq_true (List.mem_filter.mp ha).2
  have hb' := of_decide_eq_true (List.mem_filter.mp hb).2
  rw [← head_tail dl a.1, ← head_tail dl b.1, ha', hb', lex_append rfl] at hab
  rcases hab with h | h
  · exact absurd h (lt_irrefl _)
  · exact h.2

/-! ### Loops -/

section loops
variable [AddCommMonoid G] [Semiring R]

theorem innerLoop_eq {dl n cap : Nat} {out : BT G R} {ka : List Nat} {as : FM (List Nat) (Blk R)} {val : List Nat → Option (KB R)}
    (hn : 0 < n) (hdl : dl ≤ n) : ∀ (fuel : Nat) (t acc : FM (List Nat) (Blk R)), Keyed n t → t.length ≤ fuel →
    acc.length + ((heads dl t).filterMap val).length ≤ cap →
    (∀ b ∈ t, ∀ acc', pairStep dl out ka b.1 as (col dl t (headKey dl b.1)) acc' =
      .ok (acc' ++ (val (headKey dl b.1)).toList)) →
    innerLoop dl out cap ka as fuel t acc = some (.ok (acc ++ (heads dl t).filterMap val))
  | fuel, [], acc, _, _, _, _ => by cases fuel <;> simp [innerLoop, heads]
  | 0, b :: bs, acc, _, hf, _, _ => by simp at hf
  | fuel + 1, b :: bs, acc, hk, hf, hc, hs => by
    simp only [innerLoop]
    by_cases hcap : acc.length = cap
    · rw [if_pos hcap]
      have : ((heads dl (b :: bs)).filterMap val).length = 0 := by omega
      rw [List.length_eq_zero_iff.mp this, List.append_nil]
    · rw [if_neg hcap]
      obtain ⟨e1, e2⟩ := column_eq (dl := dl) hk hn hdl
      rw [e1, e2]
      have h1 := hs b (by simp) acc
      rw [col] at h1
      rw [h1]
      simp only
      have hlen : ((b :: bs).filter fun e => !decide (headKey dl e.1 = headKey dl b.1)).length ≤ fuel := by
        simp only [List.filter_cons, decide_true, Bool.not_true]
        exact le_trans (List.length_filter_le _ _) (by simpa using hf)
      have hval : (heads dl (b :: bs)).filterMap val = (val (headKey dl b.1)).toList ++
          (heads dl ((b :: bs).filter fun e => !decide (headKey dl e.1 = headKey dl b.1))).filterMap val := by
        rw [heads_cons, List.filterMap_cons]
        rcases val (headKey dl b.1) <;> simp
      rw [innerLoop_eq (val := val) hn hdl fuel _ _ (hk.filter _) hlen]
      · rw [hval, List.append_assoc]
      · rw [hval, List.length_append] at hc
        rw [List.length_append]; omega
      · intro e he acc'
        obtain ⟨he1, he2⟩ := List.mem_filter.mp he
        have hne : headKey dl e.1 ≠ headKey dl b.1 := by simpa using he2
        rw [col_filter hne]
        exact hs e he1 acc'

theorem outerLoop_eq {dl n cap : Nat} {out : BT G R} {t2 : FM (List Nat) (Blk R)} {val : List Nat → FM (List Nat) (Blk R)}
    (hn : 0 < n) (hdl : dl ≤ n) : ∀ (fuel : Nat) (t acc : FM (List Nat) (Blk R)), Keyed n t → t.length + t2.length ≤ fuel →
    acc.length + ((heads dl t).flatMap val).length ≤ cap →
    (∀ a ∈ t, ∀ fuel' acc', t2.length ≤ fuel' → acc'.length + (val (headKey dl a.1)).length ≤ cap →
      innerLoop dl out cap a.1 (col dl t (headKey dl a.1)) fuel' t2 acc' = some (.ok (acc' ++ val (headKey dl a.1)))) →
    outerLoop dl out cap t2 fuel t acc = some (.ok (acc ++ (heads dl t).flatMap val))
  | fuel, [], acc, _, _, _, _ => by cases fuel <;> simp [outerLoop, heads]
  | 0, b :: bs, acc, _, hf, _, _ => by simp at hf
  | fuel + 1, b :: bs, acc, hk, hf, hc, hs => by
    simp only [outerLoop]
    by_cases hcap : acc.length = cap
    · rw [if_pos hcap]
      have : ((heads dl (b :: bs)).flatMap val).length = 0 := by omega
      rw [List.length_eq_zero_iff.mp this, List.append_nil]
    · rw [if_neg hcap]
      obtain ⟨e1, e2⟩ := column_eq (dl := dl) hk hn hdl
      rw [e1, e2]
      have hval : (heads dl (b :: bs)).flatMap val = val (headKey dl b.1) ++
          (heads dl ((b :: bs).filter fun e => !decide (headKey dl e.1 = headKey dl b.1))).flatMap val := by
        rw [heads_cons, List.flatMap_cons]
      rw [hval, List.length_append] at hc
      have h1 := hs b (by simp) fuel acc (by simp only [List.length_cons] at hf; omega) (by omega)
      rw [col] at h1
      rw [h1, hval]
      simp only
      have hlen : ((b :: bs).filter fun e => !decide (headKey dl e.1 = headKey dl b.1)).length ≤ bs.length := by
        simp only [List.filter_cons, decide_true, Bool.not_true]
        exact List.length_filter_le _ _
      have hk' := hk.filter fun e => !decide (headKey dl e.1 = headKey dl b.1)
      have hs' : ∀ a ∈ (b :: bs).filter (fun e => !decide (headKey dl e.1 = headKey dl b.1)), ∀ fuel' acc', t2.length ≤ fuel' →
          acc'.length + (val (headKey dl a.1)).length ≤ cap →
          innerLoop dl out cap a.1 (col dl ((b :: bs).filter fun e => !decide (headKey dl e.1 = headKey dl b.1)) (headKey dl a.1))
            fuel' t2 acc' = some (.ok (acc' ++ val (headKey dl a.1))) := by
        intro e he fuel' acc'
        obtain ⟨he1, he2⟩ := List.mem_filter.mp he
        have hne : headKey dl e.1 ≠ headKey dl b.1 := by simpa using he2
        rw [col_filter hne]
        exact hs e he1 fuel' acc'
      generalize (b :: bs).filter (fun e => !decide (headKey dl e.1 = headKey dl b.1)) = rest at hlen hc hk' hs' ⊢
      rw [outerLoop_eq (val := val) (t2 := t2) hn hdl fuel rest _ hk' ?_ ?_ hs']
      · rw [List.append_assoc]
      · simp only [List.length_cons] at hf; omega
      · rw [List.length_append]; omega

/-- The loops finish whatever happens inside, when keys are not empty. -/
theorem innerLoop_ends {dl n cap : Nat} {out : BT G R} {ka : List Nat} {as : FM (List Nat) (Blk R)}
    (hn : 0 < n) (hdl : dl ≤ n) : ∀ (fuel : Nat) (t acc : FM (List Nat) (Blk R)), Keyed n t → t.length ≤ fuel →
    innerLoop dl out cap ka as fuel t acc ≠ none
  | fuel, [], acc, _, _ => by cases fuel <;> simp [innerLoop]
  | 0, b :: bs, acc, _, hf => by simp at hf
  | fuel + 1, b :: bs, acc, hk, hf => by
    simp only [innerLoop]
    split
    · simp
    · obtain ⟨e1, e2⟩ := column_eq (dl := dl) hk hn hdl
      rw [e1, e2]
      split
      · refine innerLoop_ends hn hdl fuel _ _ (hk.filter _) ?_
        simp only [List.filter_cons, decide_true, Bool.not_true]
        exact le_trans (List.length_filter_le _ _) (by simpa using hf)
      · simp

theorem outerLoop_ends {dl n n2 cap : Nat} {out : BT G R} {t2 : FM (List Nat) (Blk R)} (hk2 : Keyed n2 t2)
    (hn : 0 < n) (hdl : dl ≤ n) (hn2 : 0 < n2) (hdl2 : dl ≤ n2) : ∀ (fuel : Nat) (t acc : FM (List Nat) (Blk R)), Keyed n t →
    t.length + t2.length ≤ fuel → outerLoop dl out cap t2 fuel t acc ≠ none
  | fuel, [], acc, _, _ => by cases fuel <;> simp [outerLoop]
  | 0, b :: bs, acc, _, hf => by simp at hf
  | fuel + 1, b :: bs, acc, hk, hf => by
    simp only [List.length_cons] at hf
    simp only [outerLoop]
    split
    · simp
    · obtain ⟨e1, e2⟩ := column_eq (dl := dl) hk hn hdl
      rw [e1, e2]
      split
      · refine outerLoop_ends hk2 hn hdl hn2 hdl2 fuel _ _ (hk.filter _) ?_
        simp only [List.filter_cons, decide_true, Bool.not_true]
        refine le_trans (Nat.add_le_add_right (List.length_filter_le _ _) _) (by omega)
      · exact innerLoop_ends hn2 hdl2 fuel _ _ hk2 (by omega)

end loops

end QuantiT.BT
