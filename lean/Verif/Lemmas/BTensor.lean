import Verif.Lemmas.Odometer
import Verif.Props.FlatMap
/-
Lemmas about sections, the filling loops and dense conversion.
-/
set_option linter.unusedSectionVars false
namespace QuantiT.BT
open QuantiT.Spec

theorem foldl_add_eq {M : Type} [AddCommMonoid M] (l : List M) (a : M) : l.foldl (· + ·) a = a + l.sum := by
  induction l generalizing a with
  | nil => simp
  | cons x l ih => simp [ih, add_assoc]

theorem foldl_add_zero {M : Type} [AddCommMonoid M] (l : List M) : l.foldl (· + ·) 0 = l.sum := by
  rw [foldl_add_eq, zero_add]

theorem sizes_eq {G : Type} (shape : Shape G) : sizes shape = shape.map dimSize := by
  simp only [sizes, foldl_add_zero]; rfl

variable {G R : Type}

theorem sections_cons {d : Dim G} {ds : Shape G} {b : Nat} {bs : List Nat} {secs : List (Nat × G)} :
    sections (d :: ds) (b :: bs) = some secs ↔
      ∃ s r, d[b]? = some s ∧ sections ds bs = some r ∧ secs = s :: r := by
  simp only [sections]
  constructor
  · intro h
    split at h
    · rename_i s r h1 h2; exact ⟨s, r, h1, h2, by simpa using h.symm⟩
    · cases h
  · rintro ⟨s, r, h1, h2, rfl⟩
    simp [h1, h2]

theorem sections_inRange : ∀ {shape : Shape G} {b : List Nat} {secs : List (Nat × G)}, sections shape b = some secs →
    InRange b (secCounts shape)
  | [], [], _, _ => .nil
  | [], _ :: _, _, h => by simp [sections] at h
  | _ :: _, [], _, h => by simp [sections] at h
  | d :: ds, b :: bs, secs, h => by
    obtain ⟨s, r, h1, h2, rfl⟩ := sections_cons.mp h
    exact .cons (List.getElem?_eq_some_iff.mp h1).1 (sections_inRange h2)

theorem sections_of_inRange : ∀ {shape : Shape G} {b : List Nat}, InRange b (secCounts shape) →
    ∃ secs, sections shape b = some secs
  | [], [], _ => ⟨[], rfl⟩
  | [], _ :: _, h => by cases h
  | _ :: _, [], h => by cases h
  | d :: ds, b :: bs, h => by
    obtain ⟨h1, h2⟩ := List.forall₂_cons.mp h
    obtain ⟨r, hr⟩ := sections_of_inRange h2
    exact ⟨d[b] :: r, sections_cons.mpr ⟨_, _, List.getElem?_eq_getElem h1, hr, rfl⟩⟩

theorem sections_length : ∀ {shape : Shape G} {b : List Nat} {secs : List (Nat × G)}, sections shape b = some secs →
    b.length = shape.length ∧ secs.length = shape.length
  | [], [], _, h => by simp [sections] at h; simp [h]
  | [], _ :: _, _, h => by simp [sections] at h
  | _ :: _, [], _, h => by simp [sections] at h
  | d :: ds, b :: bs, secs, h => by
    obtain ⟨s, r, h1, h2, rfl⟩ := sections_cons.mp h
    have := sections_length h2
    simp [this]

theorem blockProps_eq : ∀ {shape : Shape G} {b : List Nat} {secs : List (Nat × G)}, sections shape b = some secs →
    blockProps shape b = .ok secs
  | [], [], secs, h => by simp [sections] at h; subst h; rfl
  | [], _ :: _, _, h => by simp [sections] at h
  | _ :: _, [], _, h => by simp [sections] at h
  | d :: ds, b :: bs, secs, h => by
    obtain ⟨s, r, h1, h2, rfl⟩ := sections_cons.mp h
    have hb := (List.getElem?_eq_some_iff.mp h1).1
    have : ((d :: ds).flatten)[b]? = some s := by
      rw [List.flatten_cons, List.getElem?_append_left hb, h1]
    simp only [blockProps, this, blockProps_eq h2]
    rfl

variable [AddCommMonoid G] [DecidableEq G]

theorem conserves_eq {t : BT G R} {b : List Nat} {secs} (h : sections t.shape b = some secs) :
    conserves t b = .ok (decide (charge secs = t.rule)) := by
  simp only [conserves, blockProps_eq h, foldl_add_zero, charge]
  rfl

theorem conserves_allowed {t : BT G R} {b : List Nat} (h : Allowed t.shape t.rule b) : conserves t b = .ok true := by
  obtain ⟨secs, h1, h2⟩ := h
  rw [conserves_eq h1]; simp [h2]

theorem conserves_false {t : BT G R} {b : List Nat} (hb : InRange b (secCounts t.shape))
    (h : ¬ Allowed t.shape t.rule b) : conserves t b = .ok false := by
  obtain ⟨secs, h1⟩ := sections_of_inRange hb
  rw [conserves_eq h1]
  have : ¬ charge secs = t.rule := fun hc => h ⟨secs, h1, hc⟩
  simp [this]

theorem blockSizes_eq {t : BT G R} {b : List Nat} {secs} (h : sections t.shape b = some secs) :
    blockSizes t b = .ok (secs.map Prod.fst) := by
  simp only [blockSizes, blockProps_eq h]; rfl

theorem indexAssign_eq {K V : Type} [LinearOrder K] {m : FM K V} (hs : Sorted m) (d : V) (k : K) (v : V) :
    Sorted (FM.indexAssign d m k v) ∧
      ∀ x, lookup (FM.indexAssign d m k v) x = if x = k then some v else lookup m x := by
  have h := FM.insert_eq hs k d
  simp only [FM.indexAssign, FM.index_eq_insert hs]
  have h2 := FM.set_eq (v := v) h.1 h.2.2.1
  refine ⟨h2.1, ?_⟩
  intro x; rw [h2.2, h.2.1]; split <;> rfl

variable [Zero R]

theorem blockAssign_eq {t : BT G R} {b : List Nat} (v : Blk R) (h : Allowed t.shape t.rule b) :
    blockAssign t b v = .ok { t with blocks := FM.indexAssign undef t.blocks b v } := by
  simp only [blockAssign, conserves_allowed h]; rfl

/-- What one round of the filling loop does. -/
theorem fillOnce_eq {t : BT G R} {b : List Nat} {mk} {mkv : List Nat → Option (Blk R)} (hs : Sorted t.blocks)
    (hb : InRange b (secCounts t.shape))
    (hmk : ∀ idx secs, sections t.shape idx = some secs → charge secs = t.rule →
      mk idx (secs.map Prod.fst) = .ok (mkv idx)) :
    ∃ m, fillOnce mk t b = .ok { t with blocks := m } ∧ Sorted m ∧
      ∀ x, lookup m x = if x = b ∧ Allowed t.shape t.rule b then (mkv b).or (lookup t.blocks x) else lookup t.blocks x := by
  by_cases ha : Allowed t.shape t.rule b
  · obtain ⟨secs, h1, h2⟩ := ha
    have ha : Allowed t.shape t.rule b := ⟨secs, h1, h2⟩
    have hm := hmk b secs h1 h2
    rcases hv : mkv b with _ | v
    · refine ⟨t.blocks, ?_, hs, ?_⟩
      · simp only [fillOnce, conserves_allowed ha, blockSizes_eq h1, bind, Except.bind, hm, hv]; rfl
      · intro x; simp
    · obtain ⟨hs', hl⟩ := indexAssign_eq hs undef b v
      refine ⟨_, ?_, hs', ?_⟩
      · simp only [fillOnce, conserves_allowed ha, blockSizes_eq h1, bind, Except.bind, hm, hv]
        exact blockAssign_eq v ha
      · intro x; rw [hl]; simp [ha]
  · refine ⟨t.blocks, ?_, hs, ?_⟩
    · simp only [fillOnce, conserves_false hb ha, bind, Except.bind]; rfl
    · intro x; simp [ha]

/-- The filling loop, from the `k`th index on. -/
theorem fillLoop_eq {shape : Shape G} {rule : G} {mk} {mkv : List Nat → Option (Blk R)}
    (hpos : ∀ n ∈ secCounts shape, 0 < n)
    (hmk : ∀ idx secs, sections shape idx = some secs → charge secs = rule →
      mk idx (secs.map Prod.fst) = .ok (mkv idx)) :
    ∀ (m k : Nat) (bl : FM (List Nat) (Blk R)), 0 < m → k + m = (secCounts shape).prod → Sorted bl →
    ∃ bl', fillLoop mk m ⟨shape, rule, bl⟩ (unrank (secCounts shape) k) = some (.ok ⟨shape, rule, bl'⟩) ∧ Sorted bl' ∧
      ∀ x, lookup bl' x = if Allowed shape rule x ∧ k ≤ rank (secCounts shape) x then (mkv x).or (lookup bl x)
        else lookup bl x := by
  intro m
  induction m with
  | zero => intro k bl h; omega
  | succ m ih =>
    intro k bl _ hN hs
    have hkN : k < (secCounts shape).prod := by omega
    obtain ⟨bl1, h1, hs1, hl1⟩ := fillOnce_eq (t := ⟨shape, rule, bl⟩) (mk := mk) (mkv := mkv) hs
      (unrank_inRange hpos k) hmk
    have hrk := rank_unrank hpos hkN
    have hx : ∀ x, Allowed shape rule x → rank (secCounts shape) x = k → x = unrank (secCounts shape) k := by
      rintro x ⟨secs, hsec, _⟩ hr
      rw [← hr, unrank_rank (sections_inRange hsec)]
    simp only [fillLoop, h1, incr_unrank hpos]
    by_cases hm : m = 0
    · subst hm
      have hk1 : k + 1 = 0 + (secCounts shape).prod := by omega
      have hz : (unrank (secCounts shape) (k + 1)).any (fun x => decide (x ≠ 0)) = false := by
        rw [hk1, unrank_prod hpos, unrank_any hpos (prod_pos hpos)]; simp
      refine ⟨bl1, ?_, hs1, ?_⟩
      · rw [hz]; rfl
      · intro x
        rw [hl1]
        by_cases hA : Allowed shape rule x
        · obtain ⟨secs, hsec, _⟩ := id hA
          have hlt := rank_lt (sections_inRange hsec)
          by_cases hkx : k ≤ rank (secCounts shape) x
          · have := hx x hA (by omega)
            subst this
            simp [hA, hrk]
          · have hne : x ≠ unrank (secCounts shape) k := by
              rintro rfl; omega
            simp [hkx, hne]
        · have hne : ¬ (x = unrank (secCounts shape) k ∧ Allowed shape rule (unrank (secCounts shape) k)) := by
            rintro ⟨rfl, h⟩; exact hA h
          simp only [hA, false_and, if_false]
          rw [if_neg hne]
    · have hz : (unrank (secCounts shape) (k + 1)).any (fun x => decide (x ≠ 0)) = true := by
        rw [unrank_any hpos (by omega)]; simp
      obtain ⟨bl2, h2, hs2, hl2⟩ := ih (k + 1) bl1 (by omega) (by omega) hs1
      refine ⟨bl2, ?_, hs2, ?_⟩
      · rw [hz]; exact h2
      · intro x
        rw [hl2, hl1]
        by_cases hA : Allowed shape rule x
        · by_cases hkx : k ≤ rank (secCounts shape) x
          · by_cases hke : rank (secCounts shape) x = k
            · have := hx x hA hke
              subst this
              simp [hA, hrk]
            · have hne : x ≠ unrank (secCounts shape) k := by rintro rfl; exact hke hrk
              have : k + 1 ≤ rank (secCounts shape) x := by omega
              simp [hA, hkx, this, hne]
          · have hne : x ≠ unrank (secCounts shape) k := by rintro rfl; omega
            have : ¬ k + 1 ≤ rank (secCounts shape) x := by omega
            simp [hkx, this, hne]
        · have hne : ¬ (x = unrank (secCounts shape) k ∧ Allowed shape rule (unrank (secCounts shape) k)) := by
            rintro ⟨rfl, h⟩; exact hA h
          simp only [hA, false_and, if_false]
          rw [if_neg hne]

/-- The whole loop. -/
theorem fill_eq {shape : Shape G} {rule : G} {mk} {mkv : List Nat → Option (Blk R)}
    (hpos : ∀ d ∈ shape, d ≠ [])
    (hmk : ∀ idx secs, sections shape idx = some secs → charge secs = rule →
      mk idx (secs.map Prod.fst) = .ok (mkv idx)) (bl : FM (List Nat) (Blk R)) (hs : Sorted bl) :
    ∃ bl', fillLoop mk (secCounts shape).prod ⟨shape, rule, bl⟩ (List.replicate shape.length 0)
        = some (.ok ⟨shape, rule, bl'⟩) ∧ Sorted bl' ∧
      ∀ x, lookup bl' x = if Allowed shape rule x then (mkv x).or (lookup bl x) else lookup bl x := by
  have hpos' : ∀ n ∈ secCounts shape, 0 < n := by
    intro n hn
    obtain ⟨d, hd, rfl⟩ := List.mem_map.mp hn
    exact List.length_pos_iff.mpr (hpos d hd)
  obtain ⟨bl', h1, h2, h3⟩ := fillLoop_eq hpos' hmk (secCounts shape).prod 0 bl (prod_pos hpos') (by omega) hs
  refine ⟨bl', ?_, h2, ?_⟩
  · rw [unrank_zero] at h1
    simpa [secCounts] using h1
  · intro x; rw [h3]; simp

end QuantiT.BT
