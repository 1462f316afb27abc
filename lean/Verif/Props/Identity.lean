import Verif.Props.View
import Verif.Lemmas.Contract2
import Mathlib.Tactic.IntervalCases
/-
C32, C33, C35: shapes of several tensors, identity, selection rule of a dense matrix.
-/
set_option linter.unusedSectionVars false
namespace QuantiT.BT
open QuantiT.Spec
variable {G R : Type}

/-! ### C32 -/

/-- C32: the dimensions one after the other, the rules composed. -/
theorem C32_shape_from_list [AddCommGroup G] [DecidableEq G] (l : List (BT G R)) (h : l ≠ []) :
    shapeFromList l = .ok ⟨(l.map BT.shape).flatten, (l.map BT.rule).sum, []⟩ := by
  rcases l with _ | ⟨a, l⟩
  · exact absurd rfl h
  · have : ∀ (l : List (BT G R)) (out : BT G R), out.blocks = [] → l.foldlM tensorProductShape out =
        .ok ⟨out.shape ++ (l.map BT.shape).flatten, out.rule + (l.map BT.rule).sum, []⟩ := by
      intro l
      induction l with
      | nil =>
        rintro ⟨s, r, b⟩ hb
        cases hb
        simp [pure, Except.pure]
      | cons x l ih =>
        intro out _
        rw [List.foldlM_cons, tensorProductShape_eq]
        refine (ih _ rfl).trans ?_
        simp [add_assoc]
    simpa [shapeFromList] using this l ⟨a.shape, a.rule, []⟩ rfl

/-- C32: a block is allowed iff its index splits into one block index per tensor, with charges composing to the
composed rule. -/
theorem C32_allowed [AddCommGroup G] [DecidableEq G] (l : List (BT G R)) (k : List Nat) :
    Allowed (l.map BT.shape).flatten (l.map BT.rule).sum k ↔
      ∃ ps : List (List Nat × List (Nat × G)), k = (ps.map Prod.fst).flatten ∧
        List.Forall₂ (fun t p => sections t.shape p.1 = some p.2) l ps ∧
        (ps.map fun p => charge p.2).sum = (l.map BT.rule).sum := by
  have key : ∀ (l : List (BT G R)) (k : List Nat) (s : List (Nat × G)), sections (l.map BT.shape).flatten k = some s ↔
      ∃ ps : List (List Nat × List (Nat × G)), k = (ps.map Prod.fst).flatten ∧ s = (ps.map Prod.snd).flatten ∧
        List.Forall₂ (fun t p => sections t.shape p.1 = some p.2) l ps := by
    intro l
    induction l with
    | nil =>
      intro k s
      simp only [List.map_nil, List.flatten_nil, List.forall₂_nil_left_iff]
      constructor
      · intro h
        cases k <;> simp [sections] at h
        exact ⟨[], rfl, h, rfl⟩
      · rintro ⟨ps, rfl, rfl, rfl⟩
        rfl
    | cons t l ih =>
      intro k s
      simp only [List.map_cons, List.flatten_cons]
      constructor
      · intro h
        obtain ⟨k1, k2, s1, s2, rfl, rfl, h1, h2⟩ := sections_append_inv h
        obtain ⟨ps, rfl, rfl, h3⟩ := (ih _ _).mp h2
        exact ⟨(k1, s1) :: ps, by simp, by simp, .cons h1 h3⟩
      · rintro ⟨ps, rfl, rfl, h3⟩
        rcases ps with _ | ⟨p, ps⟩
        · cases h3
        · obtain ⟨h1, h2⟩ := List.forall₂_cons.mp h3
          simp only [List.map_cons, List.flatten_cons]
          exact sections_append h1 ((ih _ _).mpr ⟨ps, rfl, rfl, h2⟩)
  have hch : ∀ ps : List (List Nat × List (Nat × G)),
      charge (ps.map Prod.snd).flatten = (ps.map fun p => charge p.2).sum := by
    intro ps
    induction ps with
    | nil => rfl
    | cons p ps ih => simp only [List.map_cons, List.flatten_cons, List.sum_cons, ← ih, charge_append]
  constructor
  · rintro ⟨s, h1, h2⟩
    obtain ⟨ps, rfl, rfl, h3⟩ := (key _ _ _).mp h1
    exact ⟨ps, rfl, h3, by rw [← hch, h2]⟩
  · rintro ⟨ps, rfl, h3, h4⟩
    exact ⟨_, (key _ _ _).mpr ⟨ps, rfl, rfl, h3⟩, by rw [hch, h4]⟩

example : shapeFromList [ex18, ex18] = .ok ⟨ex18.shape ++ ex18.shape, 0, []⟩ :=
  C32_shape_from_list [ex18, ex18] (by simp)

example : Allowed (([ex18, ex18].map BT.shape).flatten) (([ex18, ex18].map BT.rule).sum) [0, 1, 1, 0] :=
  (C32_allowed [ex18, ex18] [0, 1, 1, 0]).mpr
    ⟨[([0, 1], [(2, 0), (2, -1)]), ([1, 0], [(1, 1), (1, 0)])], rfl, .cons rfl (.cons rfl .nil), by decide⟩

/-! ### C33 -/

theorem eyeFold_eq [AddCommGroup G] [DecidableEq G] [Zero R] [One R] {d0 d1 : Dim G} {rule : G} :
    ∀ (L : List Nat) (m : FM (List Nat) (Blk R)), Sorted m → (∀ i ∈ L, i < d0.length ∧ i < d1.length) →
    ∃ m', L.foldlM (fun (out : BT G R) i => do
        let ok ← conserves out [i, i]
        if ok then do
          let sz ← blockSizes out [i, i]
          .ok { out with blocks := FM.indexAssign undef out.blocks [i, i] (eyeBlk (sz.getD 0 0) (sz.getD 1 0)) }
        else .ok out) ⟨[d0, d1], rule, m⟩ = .ok ⟨[d0, d1], rule, m'⟩ ∧ Sorted m' ∧
      ∀ k, lookup m' k = if (∃ i ∈ L, k = [i, i]) ∧ Allowed [d0, d1] rule k
        then some (eyeBlk ((secSizes [d0, d1] k).getD 0 0) ((secSizes [d0, d1] k).getD 1 0)) else lookup m k := by
  intro L
  induction L with
  | nil => intro m hs _; exact ⟨m, rfl, hs, fun k => by simp⟩
  | cons i L ih =>
    intro m hs hL
    have hi := hL i (by simp)
    have hin : InRange [i, i] (secCounts [d0, d1]) := .cons hi.1 (.cons hi.2 .nil)
    obtain ⟨s, h1⟩ := sections_of_inRange hin
    rw [List.foldlM_cons]
    simp only [conserves_eq (t := (⟨[d0, d1], rule, m⟩ : BT G R)) h1, bind, Except.bind,
      blockSizes_eq (t := (⟨[d0, d1], rule, m⟩ : BT G R)) h1]
    by_cases hc : charge s = rule
    · rw [if_pos (by simpa using hc)]
      have hia := indexAssign_eq hs (undef : Blk R) [i, i]
        (eyeBlk ((s.map Prod.fst).getD 0 0) ((s.map Prod.fst).getD 1 0))
      obtain ⟨m', q1, q2, q3⟩ := ih _ hia.1 fun j hj => hL j (by simp [hj])
      refine ⟨m', q1, q2, fun k => ?_⟩
      rw [q3]
      by_cases hk : k = [i, i]
      · subst hk
        have ha : Allowed [d0, d1] rule [i, i] := ⟨s, h1, hc⟩
        rw [if_pos (show (∃ j ∈ i :: L, [i, i] = [j, j]) ∧ _ from ⟨⟨i, by simp, rfl⟩, ha⟩)]
        split
        · rfl
        · rw [hia.2, if_pos rfl, secSizes_eq h1]
      · rw [hia.2, if_neg hk]
        refine if_congr ?_ rfl rfl
        simp [hk]
    · rw [if_neg (by simpa using hc)]
      obtain ⟨m', q1, q2, q3⟩ := ih m hs fun j hj => hL j (by simp [hj])
      refine ⟨m', q1, q2, fun k => ?_⟩
      rw [q3]
      refine if_congr ?_ rfl rfl
      constructor
      · rintro ⟨⟨j, hj, rfl⟩, h⟩
        exact ⟨⟨j, by simp [hj], rfl⟩, h⟩
      · rintro ⟨⟨j, hj, rfl⟩, h⟩
        rcases List.mem_cons.mp hj with rfl | hj
        · obtain ⟨s', g1, g2⟩ := h
          rw [h1] at g1; cases g1
          exact absurd g2 hc
        · exact ⟨⟨j, hj, rfl⟩, h⟩

/-- C33: `eye_like` stores exactly the allowed blocks with equal section numbers, each the identity of its size
(ones where the two offsets agree); in dense terms, one at (x, y) iff x and y are at the same offset of the same
section number and that block is allowed. -/
theorem C33_eye_like [AddCommGroup G] [DecidableEq G] [Zero R] [One R] (t : BT G R) (d0 d1 : Dim G)
    (h : t.shape = [d0, d1]) :
    ∃ r, eyeLike t = .ok r ∧ r.shape = t.shape ∧ r.rule = t.rule ∧ Conserving r.shape r.rule r.blocks ∧
      (∀ k, (∃ b, (k, b) ∈ r.blocks) ↔ (∃ i, k = [i, i]) ∧ Allowed t.shape t.rule k) ∧
      (∀ k b, (k, b) ∈ r.blocks → ∀ x y, b.f [x, y] = if x = y then 1 else 0) ∧
      ∀ x y p q, locate d0 x = some p → locate d1 y = some q →
        entry r.shape r.blocks [x, y] =
          if p.1 = q.1 ∧ p.2 = q.2 ∧ Allowed t.shape t.rule [p.1, p.1] then 1 else 0 := by
  obtain ⟨m, q1, q2, q3⟩ := eyeFold_eq (R := R) (d0 := d0) (d1 := d1) (rule := t.rule)
    (List.range (min d0.length d1.length)) [] sorted_nil (fun i hi => by
      rw [List.mem_range] at hi; omega)
  classical
  have hq : ∀ k, lookup m k = if (∃ i, k = [i, i]) ∧ Allowed [d0, d1] t.rule k
        then some (eyeBlk ((secSizes [d0, d1] k).getD 0 0) ((secSizes [d0, d1] k).getD 1 0)) else none := by
    intro k
    rw [q3, lookup_nil]
    refine if_congr ?_ rfl rfl
    constructor
    · rintro ⟨⟨i, _, hk⟩, ha⟩; exact ⟨⟨i, hk⟩, ha⟩
    · rintro ⟨⟨i, rfl⟩, ha⟩
      refine ⟨⟨i, ?_, rfl⟩, ha⟩
      obtain ⟨s, g, _⟩ := ha
      have := sections_inRange g
      obtain ⟨g1, g2⟩ := List.forall₂_cons.mp this
      obtain ⟨g2, _⟩ := List.forall₂_cons.mp g2
      rw [List.mem_range]
      exact lt_min g1 g2
  rw [h]
  refine ⟨⟨[d0, d1], t.rule, m⟩, ?_, rfl, rfl, ⟨q2, ?_⟩, ?_, ?_, ?_⟩
  · rw [eyeLike]
    simp only [h]
    exact q1
  · intro k b hkb
    have : lookup m k = some b := lookup_of_mem q2 hkb
    rw [hq] at this
    split at this
    · rename_i hk
      obtain ⟨⟨i, rfl⟩, s, g1, g2⟩ := hk
      cases this
      refine ⟨s, g1, g2, ?_⟩
      rw [secSizes_eq g1]
      obtain ⟨g3, g4⟩ := sections_length g1
      rcases s with _ | ⟨a, _ | ⟨b, _ | _⟩⟩ <;> simp at g4
      rfl
    · cases this
  · intro k
    constructor
    · rintro ⟨b, hb⟩
      have := lookup_of_mem q2 hb
      rw [hq] at this
      split at this
      · assumption
      · cases this
    · intro hk
      have := hq k
      rw [if_pos hk] at this
      exact ⟨_, mem_of_lookup this⟩
  · intro k b hkb x y
    have : lookup m k = some b := lookup_of_mem q2 hkb
    rw [hq] at this
    split at this
    · cases this; rfl
    · cases this
  · rintro x y ⟨p1, p2⟩ ⟨q1, q2⟩ hp hq'
    have hl : locateAll [d0, d1] [x, y] = some ([p1, q1], [p2, q2]) :=
      locateAll_cons.mpr ⟨_, _, _, _, hp, locateAll_cons.mpr ⟨_, _, _, _, hq', rfl, rfl⟩, rfl⟩
    simp only [entry, hl, hq]
    by_cases h1 : p1 = q1
    · subst h1
      by_cases ha : Allowed [d0, d1] t.rule [p1, p1]
      · rw [if_pos ⟨⟨p1, rfl⟩, ha⟩]
        simp [eyeBlk, ha]
      · rw [if_neg (fun h => ha h.2), if_neg (fun h => ha h.2.2)]
    · rw [if_neg (by
        rintro ⟨⟨i, hi⟩, _⟩
        simp only [List.cons.injEq, and_true] at hi
        exact h1 (hi.1.trans hi.2.symm)), if_neg (fun h => h1 h.1)]

/-- C33: any other rank is rejected. -/
theorem C33_reject_rank [AddCommGroup G] [DecidableEq G] [Zero R] [One R] (t : BT G R) (h : t.shape.length ≠ 2) :
    eyeLike t = Res.throw .invalidArgument := by
  rcases t with ⟨_ | ⟨a, _ | ⟨b, _ | ⟨c, l⟩⟩⟩, r, bl⟩
  · rfl
  · rfl
  · simp at h
  · rfl

theorem locate_flipped [Neg G] (d : Dim G) (e : Nat) : locate (flipped d) e = locate d e := by
  induction d generalizing e with
  | nil => rfl
  | cons s d ih => simp only [flipped, List.map_cons, locate] at ih ⊢; simp only [ih]

theorem flipped_getElem? [Neg G] (d : Dim G) (i : Nat) : (flipped d)[i]? = (d[i]?).map fun s => (s.1, -s.2) := by
  simp [flipped]

theorem eyeLike_flipped [AddCommGroup G] [DecidableEq G] [Zero R] [One R] (d d' : Dim G) (hd : d' = flipped d)
    (sh : Shape G) (hsh : sh = [d, d'] ∨ sh = [d', d]) :
    ∃ r : BT G R, eyeLike ⟨sh, 0, []⟩ = .ok r ∧ r.shape = sh ∧ r.rule = 0 ∧ Conserving r.shape r.rule r.blocks ∧
      ∀ x y, x < dimSize d → y < dimSize d → entry r.shape r.blocks [x, y] = if x = y then 1 else 0 := by
  have main : ∀ a b : Dim G, (∀ (i : Nat) (s : Nat × G), a[i]? = some s → ∃ s' : Nat × G, b[i]? = some s' ∧ s.2 + s'.2 = 0) →
      (∀ e, locate a e = locate d e) → (∀ e, locate b e = locate d e) →
      ∃ r : BT G R, eyeLike ⟨[a, b], 0, []⟩ = .ok r ∧ r.shape = [a, b] ∧ r.rule = 0 ∧
        Conserving r.shape r.rule r.blocks ∧
        ∀ x y, x < dimSize d → y < dimSize d → entry r.shape r.blocks [x, y] = if x = y then 1 else 0 := by
    intro a b hab ha hb
    obtain ⟨r, h1, h2, h3, h4, h5, h6, h7⟩ := C33_eye_like (R := R) ⟨[a, b], 0, []⟩ a b rfl
    refine ⟨r, h1, h2, h3, h4, fun x y hx hy => ?_⟩
    obtain ⟨⟨p1, p2⟩, hp⟩ := locate_isSome.mpr hx
    obtain ⟨⟨q1, q2⟩, hq⟩ := locate_isSome.mpr hy
    rw [h7 x y _ _ ((ha x).trans hp) ((hb y).trans hq)]
    obtain ⟨s, g1, g2, g3⟩ := locate_iff.mp hp
    obtain ⟨s', g1', g2', g3'⟩ := locate_iff.mp hq
    refine if_congr ?_ rfl rfl
    constructor
    · rintro ⟨e1, e2, _⟩
      simp only at e1 e2
      subst e1 e2
      omega
    · rintro rfl
      rw [hp] at hq; cases hq
      refine ⟨rfl, rfl, ?_⟩
      obtain ⟨w, w1, w2, w3⟩ := locate_iff.mp ((ha x).trans hp)
      obtain ⟨w', w1', w2'⟩ := hab _ _ w1
      refine ⟨[w, w'], sections_cons.mpr ⟨_, _, w1, sections_cons.mpr ⟨_, _, w1', rfl, rfl⟩, rfl⟩, ?_⟩
      simp [charge, w2']
  subst hd
  rcases hsh with rfl | rfl
  · refine main d (flipped d) ?_ (fun _ => rfl) (locate_flipped d)
    intro i s hs
    exact ⟨(s.1, -s.2), by rw [flipped_getElem?, hs]; rfl, by simp⟩
  · refine main (flipped d) d ?_ (locate_flipped d) (fun _ => rfl)
    intro i s hs
    rw [flipped_getElem?] at hs
    obtain ⟨s', h1, rfl⟩ := Option.map_eq_some_iff.mp hs
    exact ⟨s', h1, by simp⟩

/-- C33: `eye` of one dimension is the identity matrix, from that dimension to the dimension with inverse charges. -/
theorem C33_eye [AddCommGroup G] [DecidableEq G] [Zero R] [One R] (d : Dim G) (hd : d ≠ []) :
    ∃ r : BT G R, eye [d] = .ok r ∧ r.shape = [d, flipped d] ∧ r.rule = 0 ∧ Conserving r.shape r.rule r.blocks ∧
      ∀ x y, x < dimSize d → y < dimSize d → entry r.shape r.blocks [x, y] = if x = y then 1 else 0 := by
  obtain ⟨r, h1, h2⟩ := eyeLike_flipped (R := R) d _ rfl _ (.inl rfl)
  refine ⟨r, ?_, h2⟩
  rcases d with _ | ⟨s, d⟩
  · exact absurd rfl hd
  · rw [← h1, eye]
    simp only [List.length_singleton, gt_iff_lt, Nat.not_ofNat_lt_one, if_false, if_true, bind, Except.bind]
    rw [C32_shape_from_list _ (by simp)]
    simp only
    congr 1
    simp [conj, inverseCvals, mapBlocks, flipped]

theorem sum_delta {R : Type} [Semiring R] (n x : Nat) (hx : x < n) (f : Nat → R) :
    ((List.range n).map fun c => f c * (if c = x then 1 else 0)).sum = f x := by
  induction n with
  | zero => omega
  | succ n ih =>
    rw [List.range_succ, List.map_append, List.sum_append]
    by_cases h : x = n
    · subst h
      have : ((List.range x).map fun c => f c * (if c = x then (1 : R) else 0)) = (List.range x).map fun _ => 0 :=
        List.map_congr_left fun c hc => by
          rw [List.mem_range] at hc
          rw [if_neg (by omega), mul_zero]
      rw [this]
      simp
    · rw [ih (by omega)]
      simp [show ¬ n = x from fun h' => h h'.symm]

theorem sum_delta' {R : Type} [Semiring R] (n x : Nat) (hx : x < n) (f : Nat → R) :
    ((List.range n).map fun c => (if x = c then 1 else 0) * f c).sum = f x := by
  rw [← sum_delta n x hx f]
  refine congrArg _ (List.map_congr_left fun c _ => ?_)
  by_cases h : x = c
  · subst h; simp
  · simp [h, Ne.symm h]

theorem indices_one (n : Nat) : indices [n] = (List.range n).map fun c => [c] := by
  simp [indices, List.flatMap_singleton']
  induction n with
  | zero => rfl
  | succ n ih => rw [List.range_succ, List.flatMap_append, ih, List.map_append]; simp

theorem others_last (n : Nat) : others [n] (n + 1) = List.range n := by
  rw [others, List.range_succ, List.filter_append]
  have : (List.range n).filter (fun j => decide (j ∉ [n])) = List.range n :=
    List.filter_eq_self.mpr fun j hj => by
      rw [List.mem_range] at hj
      simp; omega
  rw [this]; simp

theorem others_first (n : Nat) : others [0] (n + 1) = (List.range n).map Nat.succ := by
  rw [others, List.range_succ_eq_map, List.filter_cons]
  have : ((List.range n).map Nat.succ).filter (fun j => decide (j ∉ [0])) = (List.range n).map Nat.succ :=
    List.filter_eq_self.mpr fun j hj => by
      obtain ⟨i, _, rfl⟩ := List.mem_map.mp hj
      simp
  rw [this]; simp

theorem place_last (ea : List Nat) (c : Nat) : place [ea.length] ea [c] = ea ++ [c] := by
  apply List.ext_getElem?
  intro j
  simp only [place, List.length_singleton, List.getElem?_map]
  rcases lt_trichotomy j ea.length with h | h | h
  · have ho : others [ea.length] j = List.range j := by
      rw [others]
      refine List.filter_eq_self.mpr fun i hi => ?_
      rw [List.mem_range] at hi
      simp; omega
    have hne : ¬ j = ea.length := by omega
    rw [List.getElem?_range (by omega), List.getElem?_append_left h]
    simp [ho, hne, h]
  · subst h
    rw [List.getElem?_range (by omega)]
    simp
  · rw [List.getElem?_eq_none (by simp; omega), List.getElem?_eq_none (by simp; omega)]
    rfl

theorem place_first (eb : List Nat) (c : Nat) : place [0] eb [c] = c :: eb := by
  apply List.ext_getElem?
  intro j
  simp only [place, List.length_singleton, List.getElem?_map]
  rcases j with _ | j
  · rw [List.getElem?_range (by omega)]
    simp
  · rcases Nat.lt_or_ge j eb.length with h | h
    · have ho : (others [0] (j + 1)).length = j := by rw [others_first]; simp
      rw [List.getElem?_range (by omega)]
      simp [ho, h]
    · rw [List.getElem?_eq_none (by simp; omega), List.getElem?_eq_none (by simp; omega)]
      rfl

theorem gather_last {α : Type} (l : List α) (x : α) : gather [l.length] (l ++ [x]) = some [x] ∧
    gather (List.range l.length) (l ++ [x]) = some l := by
  constructor
  · exact gather_cons.mpr ⟨x, [], by simp, rfl, rfl⟩
  · refine gather_iff.mpr ?_
    rw [List.forall₂_iff_get]
    refine ⟨by simp, fun i h1 h2 => ?_⟩
    simp at h1
    simp [List.getElem?_append_left h1, h1]

theorem gather_tail {α : Type} (l : List α) (x : α) : gather ((List.range l.length).map Nat.succ) (x :: l) = some l := by
  refine gather_iff.mpr ?_
  rw [List.forall₂_iff_get]
  refine ⟨by simp, fun i h1 h2 => ?_⟩
  simp at h1
  simp [h1]

theorem flipped_contractible [AddCommGroup G] (d : Dim G) :
    Contractible [d] [flipped d] ∧ Contractible [flipped d] [d] := by
  have : ∀ d : Dim G, List.Forall₂ (fun s s' => s.1 = s'.1 ∧ s.2 + s'.2 = 0) d (flipped d) ∧
      List.Forall₂ (fun s s' => s.1 = s'.1 ∧ s.2 + s'.2 = 0) (flipped d) d := by
    intro d
    induction d with
    | nil => exact ⟨.nil, .nil⟩
    | cons s d ih => exact ⟨.cons (by simp) ih.1, .cons (by simp) ih.2⟩
  exact ⟨.cons (this d).1 .nil, .cons (this d).2 .nil⟩

theorem flipped_length [Neg G] (d : Dim G) : (flipped d).length = d.length := by simp [flipped]

/-- C33: contracting the last dimension of a tensor with the matching identity gives the tensor back. -/
theorem C33_unit_right [AddCommGroup G] [DecidableEq G] [Semiring R] (t : BT G R)
    (hc : Conserving t.shape t.rule t.blocks) (pre : Shape G) (d : Dim G) (hsh : t.shape = pre ++ [d])
    (hsec : ∀ x ∈ t.shape, x.length < 2 ^ 63) :
    ∃ e, eyeLike (⟨[flipped d, d], 0, []⟩ : BT G R) = .ok e ∧
      ∀ fuel, t.blocks.length + e.blocks.length ≤ fuel →
      ∃ r, tensordot fuel t e [pre.length] [0] = some (.ok r) ∧ r.shape = t.shape ∧ r.rule = t.rule ∧
        Conserving r.shape r.rule r.blocks ∧
        ∀ x, InRange x (t.shape.map dimSize) → entry r.shape r.blocks x = entry t.shape t.blocks x := by
  obtain ⟨e, h1, h2, h3, h4, h5⟩ := eyeLike_flipped (R := R) d _ rfl _ (.inr rfl)
  refine ⟨e, h1, fun fuel hf => ?_⟩
  have hlen : t.shape.length = pre.length + 1 := by rw [hsh]; simp
  obtain ⟨r, r1, r2, r3, r4, r5⟩ := C23_returns t e hc h4 [pre.length] [0] (by simp) (by simp) pre [d] [d] [flipped d]
    (by rw [hsh]; exact (gather_last pre d).1) (by rw [h2]; rfl)
    (by rw [hlen, others_last, hsh]; exact (gather_last pre d).2) (by rw [h2]; rfl)
    (flipped_contractible d).1 hsec (by
      intro x hx
      have hd := hsec d (by rw [hsh]; simp)
      rw [h2] at hx
      simp only [List.mem_cons, List.not_mem_nil, or_false] at hx
      rcases hx with rfl | rfl
      · rwa [flipped_length]
      · exact hd)
    (.inr ⟨by rw [hsh]; simp, .inr (by rw [h2]; simp)⟩) fuel hf
  refine ⟨r, r1, by rw [r2, hsh], by rw [r3, h3, add_zero], r4, fun x hx => ?_⟩
  rw [hsh, List.map_append] at hx
  have g1 := List.forall₂_take_append _ _ _ hx
  have g2 := List.forall₂_drop_append _ _ _ hx
  obtain ⟨y, ys, hy, hys, hxy⟩ := List.forall₂_cons_right_iff.mp g2
  cases hys
  have hx' : x = x.take (pre.map dimSize).length ++ [y] := by rw [← hxy, List.take_append_drop]
  generalize hz : x.take (pre.map dimSize).length = z at g1 hx'
  subst hx'
  have hzl : z.length = pre.length := by simpa using List.Forall₂.length_eq g1
  rw [r5 z [y] g1 (.cons hy .nil)]
  have hsum := sum_delta (dimSize d) y hy fun c => entry t.shape t.blocks (z ++ [c])
  rw [← hsum]
  simp only [List.map_cons, List.map_nil, indices_one, List.map_map]
  refine congrArg _ (List.map_congr_left fun c hc' => ?_)
  rw [List.mem_range] at hc'
  simp only [Function.comp, ← hzl, place_last, place_first]
  rw [h5 c y hc' hy]

/-- C33: and so does contracting the first dimension, from the left. -/
theorem C33_unit_left [AddCommGroup G] [DecidableEq G] [Semiring R] (t : BT G R)
    (hc : Conserving t.shape t.rule t.blocks) (post : Shape G) (d : Dim G) (hsh : t.shape = d :: post)
    (hsec : ∀ x ∈ t.shape, x.length < 2 ^ 63) :
    ∃ e, eyeLike (⟨[d, flipped d], 0, []⟩ : BT G R) = .ok e ∧
      ∀ fuel, e.blocks.length + t.blocks.length ≤ fuel →
      ∃ r, tensordot fuel e t [1] [0] = some (.ok r) ∧ r.shape = t.shape ∧ r.rule = t.rule ∧
        Conserving r.shape r.rule r.blocks ∧
        ∀ x, InRange x (t.shape.map dimSize) → entry r.shape r.blocks x = entry t.shape t.blocks x := by
  obtain ⟨e, h1, h2, h3, h4, h5⟩ := eyeLike_flipped (R := R) d _ rfl _ (.inl rfl)
  refine ⟨e, h1, fun fuel hf => ?_⟩
  have hlen : t.shape.length = post.length + 1 := by rw [hsh]; simp
  obtain ⟨r, r1, r2, r3, r4, r5⟩ := C23_returns e t h4 hc [1] [0] (by simp) (by simp) [d] post [flipped d] [d]
    (by rw [h2]; rfl) (by rw [hsh]; rfl) (by rw [h2]; rfl)
    (by rw [hlen, others_first, hsh]; exact gather_tail post d)
    (flipped_contractible d).2 (by
      intro x hx
      have hd := hsec d (by rw [hsh]; simp)
      rw [h2] at hx
      simp only [List.mem_cons, List.not_mem_nil, or_false] at hx
      rcases hx with rfl | rfl
      · exact hd
      · rwa [flipped_length]) hsec
    (.inr ⟨by rw [h2]; simp, .inr (by rw [hsh]; simp)⟩) fuel hf
  refine ⟨r, r1, by rw [r2, hsh]; rfl, by rw [r3, h3, zero_add], r4, fun x hx => ?_⟩
  rw [hsh] at hx
  obtain ⟨y, ys, hy, hys, rfl⟩ := List.forall₂_cons_right_iff.mp hx
  have := r5 [y] ys (.cons hy .nil) hys
  rw [List.singleton_append] at this
  rw [this]
  have hsum := sum_delta' (dimSize d) y hy fun c => entry t.shape t.blocks (c :: ys)
  rw [← hsum]
  have hfl : dimSize (flipped d) = dimSize d := by simp [dimSize, flipped, Function.comp_def]
  simp only [List.map_cons, List.map_nil, indices_one, List.map_map, hfl]
  refine congrArg _ (List.map_congr_left fun c hc' => ?_)
  rw [List.mem_range] at hc'
  have hp : place [1] [y] [c] = [y, c] := place_last [y] c
  simp only [Function.comp, hp, place_first]
  rw [h5 y c hy hc']

example : ∃ e r, eyeLike (⟨[[(1, 0), (2, 1)], [(1, 0), (2, -1)]], 0, []⟩ : BT ℤ ℤ) = .ok e ∧
    tensordot (ex18.blocks.length + e.blocks.length) ex18 e [1] [0] = some (.ok r) ∧ r.shape = ex18.shape :=
  let ⟨e, h1, h2⟩ := C33_unit_right ex18 ex18_conserving [[(2, 0), (1, 1)]] [(1, 0), (2, -1)] rfl (by decide)
  let ⟨r, h3, h4, _⟩ := h2 _ (le_refl _)
  ⟨e, r, h1, h3, h4⟩

/-! ### C35 -/

/-- Charge of matrix element (row, column). -/
def elemCharge [AddCommMonoid G] (d0 d1 : Dim G) (row col : Nat) : G := chargeAt d0 row + chargeAt d1 col

theorem qttAt_eq [Zero G] {d f : Dim G} {e : Nat} (h : e < dimSize d) : qttAt d f e = .ok (chargeAt d e) := by
  obtain ⟨⟨b, o⟩, hp⟩ := locate_isSome.mpr h
  obtain ⟨s, g1, g2, _⟩ := locate_iff.mp hp
  have hb : b < d.length := (List.getElem?_eq_some_iff.mp g1).1
  simp only [qttAt, decompose1_eq hp, chargeAt_eq hp g1]
  rw [List.getElem?_append_left hb, g1]

/-- What the scan makes of a list of charges. -/
def scanRes [DecidableEq G] (st : Bool × G) : List G → Res (Bool × G)
  | [] => .ok st
  | q :: qs =>
    if st.1 then (if qs.all (· = q) then .ok (false, q) else Res.throw .logicError)
    else (if (q :: qs).all (· = st.2) then .ok st else Res.throw .logicError)

theorem ruleStep_eq [AddCommGroup G] [DecidableEq G] {sig : R → Bool} {v : Blk R} {d0 d1 : Dim G} {ij : Nat × Nat}
    (h1 : ij.2 < dimSize d0) (h2 : ij.1 < dimSize d1) (hs : sig (v.f [ij.2, ij.1]) = true) (st : Bool × G) :
    ruleStep sig v d0 d1 st ij = scanRes st [elemCharge d0 d1 ij.2 ij.1] := by
  simp only [ruleStep, if_pos hs, qttAt_eq h1, qttAt_eq h2, bind, Except.bind, scanRes, elemCharge]
  rcases st with ⟨_ | _, g⟩
  · by_cases hg : g = chargeAt d0 ij.2 + chargeAt d1 ij.1
    · simp [hg]
    · simp [hg, Ne.symm hg]
  · simp

theorem scanRes_cons [DecidableEq G] (st : Bool × G) (q : G) (qs : List G) :
    (scanRes st [q] >>= fun st' => scanRes st' qs) = scanRes st (q :: qs) := by
  rcases st with ⟨_ | _, g⟩
  · by_cases hg : q = g
    · subst hg
      rcases qs with _ | ⟨q', qs⟩ <;> simp [scanRes, bind, Except.bind]
    · simp [scanRes, bind, Except.bind, hg, Res.throw]
  · rcases qs with _ | ⟨q', qs⟩ <;> simp [scanRes, bind, Except.bind]

theorem ruleScan_eq [AddCommGroup G] [DecidableEq G] {sig : R → Bool} {v : Blk R} {d0 d1 : Dim G} :
    ∀ (L : List (Nat × Nat)) (st : Bool × G), (∀ ij ∈ L, ij.2 < dimSize d0 ∧ ij.1 < dimSize d1) →
    L.foldlM (ruleStep sig v d0 d1) st =
      scanRes st ((L.filter fun ij => sig (v.f [ij.2, ij.1])).map fun ij => elemCharge d0 d1 ij.2 ij.1) := by
  intro L
  induction L with
  | nil => intro st _; rfl
  | cons ij L ih =>
    intro st hL
    obtain ⟨h1, h2⟩ := hL ij (by simp)
    have hL' := fun x hx => hL x (List.mem_cons_of_mem ij hx)
    rw [List.foldlM_cons]
    by_cases hs : sig (v.f [ij.2, ij.1]) = true
    · rw [List.filter_cons_of_pos (by simpa using hs), List.map_cons, ruleStep_eq h1 h2 hs]
      refine Eq.trans ?_ (scanRes_cons st _ _)
      congr 1
      funext st'
      exact ih st' hL'
    · rw [List.filter_cons_of_neg (by simpa using hs)]
      simp only [ruleStep, if_neg hs, bind, Except.bind]
      exact ih st hL'

/-- The charge common to all, if there is one. -/
def ruleOf [Zero G] [DecidableEq G] : List G → Res G
  | [] => .ok 0
  | q :: qs => if qs.all (· = q) then .ok q else Res.throw .logicError

/-- The matrix elements, in the order of the scan. -/
theorem mem_scan {n m i j : Nat} : (i, j) ∈ ((List.range m).flatMap fun i => (List.range n).map fun j => (i, j)) ↔
    i < m ∧ j < n := by
  simp

/-- C35: with a shape covering the matrix, the result is the charge common to all significant elements (the neutral
charge if there is none); if two significant elements differ in charge the call throws logic_error. -/
theorem C35_find_rule [AddCommGroup G] [DecidableEq G] (sig : R → Bool) (v : Blk R) (n m : Nat) (d0 d1 : Dim G)
    (hv : v.dims = [n, m]) (h0 : n ≤ dimSize d0) (h1 : m ≤ dimSize d1) :
    (∀ q, (∃ row col, row < n ∧ col < m ∧ sig (v.f [row, col]) = true) →
      (∀ row col, row < n → col < m → sig (v.f [row, col]) = true → chargeAt d0 row + chargeAt d1 col = q) →
      findSelectionRule sig v [d0, d1] = .ok q) ∧
    ((∀ row col, row < n → col < m → sig (v.f [row, col]) = false) → findSelectionRule sig v [d0, d1] = .ok 0) ∧
    (∀ row col row' col', row < n → col < m → row' < n → col' < m → sig (v.f [row, col]) = true →
      sig (v.f [row', col']) = true → chargeAt d0 row + chargeAt d1 col ≠ chargeAt d0 row' + chargeAt d1 col' →
      findSelectionRule sig v [d0, d1] = Res.throw .logicError) := by
  have hscan := ruleScan_eq (sig := sig) (v := v) (d0 := d0) (d1 := d1)
    ((List.range m).flatMap fun i => (List.range n).map fun j => (i, j)) (true, 0) (by
      rintro ⟨i, j⟩ h
      rw [mem_scan] at h
      simp only
      omega)
  generalize hQ : (((List.range m).flatMap fun i => (List.range n).map fun j => (i, j)).filter
    fun ij => sig (v.f [ij.2, ij.1])).map (fun ij => elemCharge d0 d1 ij.2 ij.1) = Q at hscan
  have hmem : ∀ q, q ∈ Q ↔ ∃ row col, row < n ∧ col < m ∧ sig (v.f [row, col]) = true ∧
      chargeAt d0 row + chargeAt d1 col = q := by
    intro q
    rw [← hQ, List.mem_map]
    constructor
    · rintro ⟨⟨i, j⟩, h, rfl⟩
      obtain ⟨h, hs⟩ := List.mem_filter.mp h
      rw [mem_scan] at h
      exact ⟨j, i, h.2, h.1, hs, rfl⟩
    · rintro ⟨row, col, a, b, c, rfl⟩
      exact ⟨(col, row), List.mem_filter.mpr ⟨mem_scan.mpr ⟨b, a⟩, c⟩, rfl⟩
  have hfind : findSelectionRule sig v [d0, d1] = ruleOf Q := by
    unfold findSelectionRule
    simp only [hv]
    rw [hscan]
    clear hQ hscan hmem
    rcases Q with _ | ⟨q, qs⟩
    · rfl
    · simp only [scanRes, ruleOf, if_true, bind, Except.bind]
      by_cases h : (qs.all (· = q)) = true
      · rw [if_pos h, if_pos h]
      · rw [if_neg h, if_neg h]; rfl
  refine ⟨?_, ?_, ?_⟩
  · rintro q ⟨row, col, a, b, c⟩ hall
    have hall' : ∀ x ∈ Q, x = q := fun x hx => by
      obtain ⟨r', c', a', b', s', rfl⟩ := (hmem x).mp hx
      exact hall r' c' a' b' s'
    have hin := (hmem _).mpr ⟨row, col, a, b, c, rfl⟩
    rw [hfind]
    rcases Q with _ | ⟨x, xs⟩
    · simp at hin
    · have hx := hall' x (by simp)
      subst hx
      rw [ruleOf, if_pos (List.all_eq_true.mpr fun y hy => by simpa using hall' y (by simp [hy]))]
  · intro hno
    rw [hfind]
    rcases Q with _ | ⟨x, xs⟩
    · rfl
    · obtain ⟨r', c', a', b', s', _⟩ := (hmem x).mp (by simp)
      rw [hno r' c' a' b'] at s'
      cases s'
  · intro row col row' col' a b a' b' s s' hne
    have i1 := (hmem _).mpr ⟨row, col, a, b, s, rfl⟩
    have i2 := (hmem _).mpr ⟨row', col', a', b', s', rfl⟩
    rw [hfind]
    rcases Q with _ | ⟨x, xs⟩
    · simp at i1
    · rw [ruleOf, if_neg]
      intro hall
      have : ∀ y ∈ x :: xs, y = x := by
        intro y hy
        rcases List.mem_cons.mp hy with rfl | hy
        · rfl
        · simpa using List.all_eq_true.mp hall y hy
      exact hne ((this _ i1).trans (this _ i2).symm)

/-- C35: anything but a matrix and a rank two shape is rejected. -/
theorem C35_reject_rank [AddCommGroup G] [DecidableEq G] (sig : R → Bool) (v : Blk R) (shape : Shape G)
    (h : v.dims.length ≠ 2 ∨ shape.length ≠ 2) : findSelectionRule sig v shape = Res.throw .invalidArgument := by
  unfold findSelectionRule
  split
  · rename_i n m d0 d1 hd
    rw [hd] at h
    simp at h
  · rfl

/-- The covering hypothesis is needed: a matrix larger than the shape reads charges that do not exist (undefined
behaviour), or those of the other dimension. -/
theorem C35_sizes_fails : ∃ (v : Blk ℤ), v.dims = [1, 2] ∧
    findSelectionRule (fun x => decide (x ≠ 0)) v ([[(1, 0)], [(1, 0)]] : Shape ℤ) = Res.ub ∧
    findSelectionRule (fun x => decide (x ≠ 0)) ⟨[2, 1], fun o => if o = [1, 0] then 1 else 0⟩ ([[(1, 0)], [(1, 7)]] : Shape ℤ)
      = .ok 14 :=
  ⟨⟨[1, 2], fun o => if o = [0, 1] then 1 else 0⟩, rfl, by rfl, by rfl⟩

/-- The hypotheses are met: the raising operator of a spin has charge 1. -/
example : findSelectionRule (fun x => decide (x ≠ 0)) (⟨[2, 2], fun o => if o = [1, 0] then 3 else 0⟩ : Blk ℤ)
    ([[(1, 0), (1, 1)], [(1, 0), (1, -1)]] : Shape ℤ) = .ok 1 := by
  refine (C35_find_rule _ _ 2 2 _ _ rfl (by decide) (by decide)).1 1 ⟨1, 0, by decide⟩ ?_
  intro row col hr hc hs
  interval_cases row <;> interval_cases col <;> revert hs <;> decide


end QuantiT.BT
