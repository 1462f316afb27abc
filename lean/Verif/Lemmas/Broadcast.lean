import Verif.Model.Broadcast
import Verif.Lemmas.Contract
import Verif.Props.FlatMap
/-
Lemmas about broadcasting.
-/
namespace QuantiT
namespace BT
open Spec
variable {G R : Type}

/-! ### One dimension -/

/-- The clipping of one component. -/
def clip1 (n i : Nat) : Nat := if n = 1 then 0 else i

theorem clip1_of_lt {n i : Nat} (h : i < n) : clip1 n i = i := by
  unfold clip1; split <;> omega

theorem locate_sizes : ∀ {d d' : Dim G}, d.map Prod.fst = d'.map Prod.fst → ∀ e, locate d e = locate d' e
  | [], [], _, _ => rfl
  | [], _ :: _, h, _ => by simp at h
  | _ :: _, [], h, _ => by simp at h
  | s :: d, s' :: d', h, e => by
    simp only [List.map_cons, List.cons.injEq] at h
    simp only [locate, h.1, locate_sizes h.2]

theorem dimSize_sizes {d d' : Dim G} (h : d.map Prod.fst = d'.map Prod.fst) : dimSize d = dimSize d' := by
  simp [dimSize, h]

theorem oneElement_iff {d : Dim G} : OneElement d ↔ ∃ q, d = [(1, q)] := by
  unfold OneElement
  constructor
  · intro h
    match d, h with
    | [(n, q)], h => simp at h; exact ⟨q, by rw [h]⟩
  · rintro ⟨q, rfl⟩; rfl

theorem unitDim_iff {d : Dim G} : unitDim d = true ↔ OneElement d := by simp [unitDim, OneElement]

theorem maskDim_eq (l s : Dim G) : maskDim l s = (if OneElement s then 1 else 0) + 2 * (if OneElement l then 1 else 0) := by
  simp only [maskDim, ← unitDim_iff]

theorem maskDim_ne {l s : Dim G} : maskDim l s ≠ 0 ↔ OneElement l ∨ OneElement s := by
  rw [maskDim_eq]
  by_cases h1 : OneElement l <;> by_cases h2 : OneElement s <;> simp [h1, h2]

/-- Two aligned dimensions, the first one of the tensor of larger rank, for which the new dimension is right. -/
def GoodDim (l s : Dim G) : Prop :=
  l.map Prod.fst = s.map Prod.fst ∨ (OneElement s ∧ 1 < l.length) ∨ (OneElement l ∧ s ≠ [])

theorem addCharges_same [AddCommMonoid G] {a b : Dim G} (h : a.length = b.length) :
    addCharges a b = .ok (List.zipWith (fun x y => (x.1, x.2 + y.2)) a b) := by
  unfold addCharges
  cases b with
  | nil => simp at h; simp [h]
  | cons q b =>
    dsimp only
    rw [h, Nat.sub_self, List.replicate_zero, List.append_nil, ← List.reverse_zipWith (by simp [h]), List.reverse_reverse,
      List.zipWith_map_right]

theorem addCharges_unit [AddCommMonoid G] {a : Dim G} (ha : a ≠ []) (q : Nat × G) :
    addCharges a [q] = .ok (a.map fun x => (x.1, x.2 + q.2)) := by
  unfold addCharges
  dsimp only
  have hpos := List.length_pos_iff.2 ha
  congr 1
  rw [List.map_singleton, List.reverse_singleton, List.length_singleton, ← List.replicate_one, List.replicate_append_replicate,
    show 1 + (a.length - 1) = a.length by omega]
  rw [show List.replicate a.length q.2 = (List.replicate a.length q.2).reverse by simp,
    ← List.reverse_zipWith (by simp), List.reverse_reverse]
  apply List.ext_getElem? 
  intro i
  simp only [List.getElem?_zipWith, List.getElem?_map, List.getElem?_replicate]
  by_cases h : i < a.length
  · simp [h]
  · simp [List.getElem?_eq_none (Nat.le_of_not_lt h)]

/-- What is needed of one new dimension `r` made of `l` and `s`. -/
structure DimRel [AddCommMonoid G] (mask : Nat) (l s r : Dim G) : Prop where
  section_ : ∀ (i j : Nat) (x y : Nat × G), l[i]? = some x → s[j]? = some y → (mask ≠ 0 ∨ i = j) →
    r[max i j]? = some (bsize x.1 y.1, x.2 + y.2) ∧ (x.1 = y.1 ∨ x.1 = 1 ∨ y.1 = 1)
  locate_ : ∀ e k o, locate r e = some (k, o) → ∃ i oi j oj, locate l (clip1 (dimSize l) e) = some (i, oi) ∧
    locate s (clip1 (dimSize s) e) = some (j, oj) ∧ (mask ≠ 0 ∨ i = j) ∧ k = max i j ∧
    ∀ (x y : Nat × G), l[i]? = some x → s[j]? = some y → oi = clip1 x.1 o ∧ oj = clip1 y.1 o
  unique : ∀ i j i' j', i < l.length → j < s.length → i' < l.length → j' < s.length → (mask ≠ 0 ∨ i = j) →
    (mask ≠ 0 ∨ i' = j') → max i j = max i' j' → i = i' ∧ j = j'
  size : dimSize r = bsize (dimSize l) (dimSize s)

theorem dimRel_same [AddCommMonoid G] {l s : Dim G} (h : l.map Prod.fst = s.map Prod.fst) (mask : Nat)
    (hm : mask ≠ 0 → OneElement l) : DimRel mask l s (List.zipWith (fun x y => (x.1, x.2 + y.2)) s l) := by
  have hlen : l.length = s.length := by simpa using congrArg List.length h
  have hsz : (List.zipWith (fun x y => (x.1, x.2 + y.2)) s l).map Prod.fst = s.map Prod.fst := by
    rw [List.map_zipWith]
    apply List.ext_getElem?
    intro i
    simp only [List.getElem?_zipWith, List.getElem?_map]
    by_cases hi : i < s.length
    · have hi' : i < l.length := by omega
      simp [hi, hi']
    · simp [List.getElem?_eq_none (Nat.le_of_not_lt hi)]
  have heq : ∀ i j, i < l.length → j < s.length → (mask ≠ 0 ∨ i = j) → i = j := by
    intro i j hi hj h1
    rcases h1 with h1 | h1
    · obtain ⟨q, rfl⟩ := oneElement_iff.1 (hm h1)
      simp at hlen hi; omega
    · exact h1
  refine ⟨?_, ?_, ?_, ?_⟩
  · intro i j x y hx hy hij
    have hi := (List.getElem?_eq_some_iff.1 hx).1
    have hj := (List.getElem?_eq_some_iff.1 hy).1
    have := heq i j hi hj hij
    subst this
    have hxy : x.1 = y.1 := by
      have := congrArg (fun L => L[i]?) h
      simpa [hx, hy] using this
    rw [max_self, List.getElem?_zipWith, hx, hy]
    refine ⟨?_, Or.inl hxy⟩
    simp only [Option.some.injEq, Prod.mk.injEq]
    refine ⟨?_, add_comm _ _⟩
    unfold bsize; split <;> omega
  · intro e k o hk
    have hlt : e < dimSize s := by
      have := locate_isSome.1 ⟨_, hk⟩
      rwa [dimSize_sizes hsz] at this
    rw [locate_sizes hsz] at hk
    have hds := dimSize_sizes h
    refine ⟨k, o, k, o, ?_, ?_, Or.inr rfl, by simp, ?_⟩
    · rw [clip1_of_lt (by omega), locate_sizes h, hk]
    · rw [clip1_of_lt hlt, hk]
    · intro x y hx hy
      obtain ⟨y', h1, h2, _⟩ := locate_iff.1 hk
      rw [hy] at h1; cases h1
      have hxy : x.1 = y.1 := by
        have := congrArg (fun L => L[k]?) h
        simpa [hx, hy] using this
      exact ⟨(clip1_of_lt (by omega)).symm, (clip1_of_lt (by omega)).symm⟩
  · intro i j i' j' hi hj hi' hj' h1 h2 h3
    have := heq i j hi hj h1
    have := heq i' j' hi' hj' h2
    omega
  · rw [dimSize_sizes hsz, dimSize_sizes h]
    unfold bsize; split <;> omega

theorem locate_unit (q : G) (e : Nat) : locate [(1, q)] (clip1 (dimSize [(1, q)]) e) = some (0, 0) := by
  simp [locate, dimSize, clip1]

theorem clip1_locate {d : Dim G} {e : Nat} {p} (h : locate d e = some p) : clip1 (dimSize d) e = e :=
  clip1_of_lt (locate_isSome.1 ⟨_, h⟩)

theorem sizes_map [AddCommMonoid G] (d : Dim G) (q : G) : (d.map fun x => (x.1, x.2 + q)).map Prod.fst = d.map Prod.fst := by
  simp [Function.comp_def]

theorem dimRel_unitRight [AddCommMonoid G] {l : Dim G} (q : G) (mask : Nat) (hm : mask ≠ 0) :
    DimRel mask l [(1, q)] (l.map fun x => (x.1, x.2 + q)) := by
  have hsz := sizes_map l q
  refine ⟨?_, ?_, ?_, ?_⟩
  · intro i j x y hx hy _
    have hj : j = 0 := by have := (List.getElem?_eq_some_iff.1 hy).1; simp at this; exact this
    subst hj
    cases hy
    rw [max_eq_left (by omega), List.getElem?_map, hx]
    refine ⟨?_, by simp⟩
    simp only [Option.map_some, Option.some.injEq, Prod.mk.injEq, and_true]
    unfold bsize; split <;> omega
  · intro e k o hk
    rw [locate_sizes hsz] at hk
    refine ⟨k, o, 0, 0, ?_, locate_unit q e, Or.inl hm, by simp, ?_⟩
    · rw [clip1_locate hk, hk]
    · intro x y hx hy
      cases hy
      obtain ⟨y', h1, h2, _⟩ := locate_iff.1 hk
      rw [hx] at h1; cases h1
      exact ⟨(clip1_of_lt h2).symm, by simp [clip1]⟩
  · intro i j i' j' _ hj _ hj' _ _ h
    simp at hj hj'
    omega
  · rw [dimSize_sizes hsz, show dimSize [(1, q)] = 1 from rfl]
    unfold bsize; split <;> omega

theorem dimRel_unitLeft [AddCommMonoid G] {s : Dim G} (q : G) (mask : Nat) (hm : mask ≠ 0) :
    DimRel mask [(1, q)] s (s.map fun x => (x.1, x.2 + q)) := by
  have hsz := sizes_map s q
  refine ⟨?_, ?_, ?_, ?_⟩
  · intro i j x y hx hy _
    have hi : i = 0 := by have := (List.getElem?_eq_some_iff.1 hx).1; simp at this; exact this
    subst hi
    cases hx
    rw [max_eq_right (by omega), List.getElem?_map, hy]
    refine ⟨?_, by simp⟩
    simp only [Option.map_some, Option.some.injEq, Prod.mk.injEq]
    exact ⟨by simp [bsize], add_comm _ _⟩
  · intro e k o hk
    rw [locate_sizes hsz] at hk
    refine ⟨0, 0, k, o, locate_unit q e, ?_, Or.inl hm, by simp, ?_⟩
    · rw [clip1_locate hk, hk]
    · intro x y hx hy
      cases hx
      obtain ⟨y', h1, h2, _⟩ := locate_iff.1 hk
      rw [hy] at h1; cases h1
      exact ⟨by simp [clip1], (clip1_of_lt h2).symm⟩
  · intro i j i' j' hi _ hi' _ _ _ h
    simp at hi hi'
    omega
  · rw [dimSize_sizes hsz, show dimSize [(1, q)] = 1 from rfl]
    simp [bsize]

theorem shapeDim_good [AddCommMonoid G] {l s : Dim G} (h : GoodDim l s) :
    ∃ r, shapeDim l s = .ok (maskDim l s, r) ∧ DimRel (maskDim l s) l s r := by
  rcases h with h | ⟨h, hl⟩ | ⟨h, hs⟩
  · have hlen : l.length = s.length := by simpa using congrArg List.length h
    refine ⟨_, ?_, dimRel_same h _ ?_⟩
    · unfold shapeDim
      dsimp only
      rw [if_neg (by omega), if_neg (by omega), addCharges_same hlen.symm]
      rfl
    · intro hm
      rcases maskDim_ne.1 hm with h1 | h1
      · exact h1
      · unfold OneElement at h1 ⊢; rw [h, h1]
  · have hm : maskDim l s ≠ 0 := maskDim_ne.2 (Or.inr h)
    obtain ⟨q, rfl⟩ := oneElement_iff.1 h
    refine ⟨_, ?_, dimRel_unitRight q _ hm⟩
    unfold shapeDim
    dsimp only
    rw [if_neg (fun h => hm h.1), if_pos (by simpa using hl), addCharges_unit (by intro e; rw [e] at hl; simp at hl)]
    rfl
  · have hm : maskDim l s ≠ 0 := maskDim_ne.2 (Or.inl h)
    obtain ⟨q, rfl⟩ := oneElement_iff.1 h
    refine ⟨_, ?_, dimRel_unitLeft q _ hm⟩
    unfold shapeDim
    dsimp only
    have := List.length_pos_iff.2 hs
    rw [if_neg (fun h => hm h.1), if_neg (by simp; omega), addCharges_unit hs]
    rfl

/-! ### All aligned dimensions -/

/-- `DimRel` for every aligned dimension. -/
inductive ShapeRel [AddCommMonoid G] : List Nat → Shape G → Shape G → Shape G → Prop
  | nil : ShapeRel [] [] [] []
  | cons {m l s r ms ls ss rs} : DimRel m l s r → ShapeRel ms ls ss rs → ShapeRel (m :: ms) (l :: ls) (s :: ss) (r :: rs)

/-- Components agree where the mask is zero. -/
inductive MaskEq : List Nat → List Nat → List Nat → Prop
  | nil : MaskEq [] [] []
  | cons {m i j ms is js} : (m ≠ 0 ∨ i = j) → MaskEq ms is js → MaskEq (m :: ms) (i :: is) (j :: js)

/-- The clipping of several components. -/
def clips (dims o : List Nat) : List Nat := List.zipWith clip1 dims o

theorem clips_inRange : ∀ {dims o : List Nat}, InRange o dims → clips dims o = o
  | _, _, .nil => rfl
  | _, _, .cons h t => by simp [clips, clip1_of_lt h]; exact clips_inRange t

theorem shapes_good [AddCommMonoid G] {ls ss : Shape G} (h : List.Forall₂ GoodDim ls ss) :
    ∃ r : List (Nat × Dim G), (ls.zip ss).mapM (fun p => shapeDim p.1 p.2) = .ok r ∧
      r.map Prod.fst = List.zipWith maskDim ls ss ∧ ShapeRel (r.map Prod.fst) ls ss (r.map Prod.snd) := by
  induction h with
  | nil => exact ⟨[], rfl, rfl, .nil⟩
  | @cons l s ls ss h1 _ ih =>
    obtain ⟨r, r1, r2, r3⟩ := ih
    obtain ⟨d, d1, d2⟩ := shapeDim_good h1
    refine ⟨(maskDim l s, d) :: r, ?_, by simp [r2], .cons d2 r3⟩
    rw [List.zip_cons_cons, List.mapM_cons, d1, r1]
    rfl

theorem matchIndex_iff : ∀ {mask a b : List Nat}, a.length = mask.length → b.length = mask.length →
    (((mask.zip (a.zip b)).all fun p => decide (p.1 ≠ 0) || decide (p.2.1 = p.2.2)) = true ↔ MaskEq mask a b)
  | [], [], [], _, _ => ⟨fun _ => .nil, fun _ => rfl⟩
  | m :: mask, i :: a, j :: b, h1, h2 => by
    have ih := matchIndex_iff (mask := mask) (a := a) (b := b) (by simpa using h1) (by simpa using h2)
    simp only [List.zip_cons_cons, List.all_cons, Bool.and_eq_true, ih]
    constructor
    · rintro ⟨h, h'⟩
      exact .cons (by simpa using h) h'
    · intro h
      cases h with
      | cons h h' => exact ⟨by simpa using h, h'⟩
  | [], _ :: _, _, h, _ => by simp at h
  | [], _, _ :: _, _, h => by simp at h
  | _ :: _, [], _, h, _ => by simp at h
  | _ :: _, _, [], _, h => by simp at h

/-- Broadcast sections. -/
def bsecs [Add G] (xs ys : List (Nat × G)) : List (Nat × G) := List.zipWith (fun x y => (bsize x.1 y.1, x.2 + y.2)) xs ys

theorem rel_sections [AddCommMonoid G] {ms : List Nat} {ls ss rs : Shape G} (h : ShapeRel ms ls ss rs) :
    ∀ {ki kj : List Nat} {xs ys}, sections ls ki = some xs → sections ss kj = some ys → MaskEq ms ki kj →
      sections rs (List.zipWith max ki kj) = some (bsecs xs ys) ∧
      List.Forall₂ (fun x y => x.1 = y.1 ∨ x.1 = 1 ∨ y.1 = 1) xs ys := by
  induction h with
  | nil =>
    intro ki kj xs ys h1 h2 hm
    cases hm
    simp [sections] at h1 h2
    subst h1; subst h2
    exact ⟨rfl, .nil⟩
  | cons hd _ ih =>
    intro ki kj xs ys h1 h2 hm
    cases hm with
    | cons hij hm =>
      obtain ⟨x, xs, a1, a2, rfl⟩ := sections_cons.1 h1
      obtain ⟨y, ys, b1, b2, rfl⟩ := sections_cons.1 h2
      obtain ⟨c1, c2⟩ := ih a2 b2 hm
      obtain ⟨d1, d2⟩ := hd.section_ _ _ _ _ a1 b1 hij
      exact ⟨sections_cons.2 ⟨_, _, d1, c1, rfl⟩, .cons d2 c2⟩

theorem rel_locate [AddCommMonoid G] {ms : List Nat} {ls ss rs : Shape G} (h : ShapeRel ms ls ss rs) :
    ∀ {e k o : List Nat}, locateAll rs e = some (k, o) → ∃ ki oi kj oj,
      locateAll ls (clips (ls.map dimSize) e) = some (ki, oi) ∧ locateAll ss (clips (ss.map dimSize) e) = some (kj, oj) ∧
      MaskEq ms ki kj ∧ k = List.zipWith max ki kj ∧
      ∀ xs ys, sections ls ki = some xs → sections ss kj = some ys →
        oi = clips (xs.map Prod.fst) o ∧ oj = clips (ys.map Prod.fst) o := by
  induction h with
  | nil =>
    intro e k o h
    cases e <;> simp [locateAll] at h
    obtain ⟨rfl, rfl⟩ := h
    refine ⟨[], [], [], [], rfl, rfl, .nil, rfl, ?_⟩
    intro xs ys h1 h2
    simp [sections] at h1 h2
    subst h1; subst h2
    exact ⟨rfl, rfl⟩
  | cons hd _ ih =>
    intro e k o h
    cases e with
    | nil => simp [locateAll] at h
    | cons e es =>
      obtain ⟨b, o, bs, os, h1, h2, h3⟩ := locateAll_cons.1 h
      cases h3
      obtain ⟨i, oi, j, oj, d1, d2, d3, d4, d5⟩ := hd.locate_ _ _ _ h1
      obtain ⟨ki, ois, kj, ojs, c1, c2, c3, c4, c5⟩ := ih h2
      refine ⟨i :: ki, oi :: ois, j :: kj, oj :: ojs, ?_, ?_, .cons d3 c3, by simp [d4, c4], ?_⟩
      · simp only [List.map_cons, clips, List.zipWith_cons_cons]
        exact locateAll_cons.2 ⟨_, _, _, _, d1, c1, rfl⟩
      · simp only [List.map_cons, clips, List.zipWith_cons_cons]
        exact locateAll_cons.2 ⟨_, _, _, _, d2, c2, rfl⟩
      · intro xs ys hx hy
        obtain ⟨x, xs, a1, a2, rfl⟩ := sections_cons.1 hx
        obtain ⟨y, ys, b1, b2, rfl⟩ := sections_cons.1 hy
        obtain ⟨f1, f2⟩ := c5 _ _ a2 b2
        obtain ⟨g1, g2⟩ := d5 _ _ a1 b1
        simp only [List.map_cons, clips, List.zipWith_cons_cons] at f1 f2 ⊢
        exact ⟨by rw [g1, f1], by rw [g2, f2]⟩

theorem rel_unique [AddCommMonoid G] {ms : List Nat} {ls ss rs : Shape G} (h : ShapeRel ms ls ss rs) :
    ∀ {ki kj ki' kj' : List Nat} {xs ys xs' ys'}, sections ls ki = some xs → sections ss kj = some ys →
      sections ls ki' = some xs' → sections ss kj' = some ys' → MaskEq ms ki kj → MaskEq ms ki' kj' →
      List.zipWith max ki kj = List.zipWith max ki' kj' → ki = ki' ∧ kj = kj' := by
  induction h with
  | nil =>
    intro ki kj ki' kj' xs ys xs' ys' _ _ _ _ h1 h2 _
    cases h1; cases h2
    exact ⟨rfl, rfl⟩
  | cons hd _ ih =>
    intro ki kj ki' kj' xs ys xs' ys' q1 q2 q3 q4 h1 h2 h3
    cases h1 with
    | cons e1 h1 =>
    cases h2 with
    | cons e2 h2 =>
      obtain ⟨_, _, a1, a2, rfl⟩ := sections_cons.1 q1
      obtain ⟨_, _, b1, b2, rfl⟩ := sections_cons.1 q2
      obtain ⟨_, _, a1', a2', rfl⟩ := sections_cons.1 q3
      obtain ⟨_, _, b1', b2', rfl⟩ := sections_cons.1 q4
      simp only [List.zipWith_cons_cons, List.cons.injEq] at h3
      obtain ⟨r1, r2⟩ := ih a2 b2 a2' b2' h1 h2 h3.2
      obtain ⟨s1, s2⟩ := hd.unique _ _ _ _ (List.getElem?_eq_some_iff.1 a1).1 (List.getElem?_eq_some_iff.1 b1).1
        (List.getElem?_eq_some_iff.1 a1').1 (List.getElem?_eq_some_iff.1 b1').1 e1 e2 h3.1
      exact ⟨by rw [r1, s1], by rw [r2, s2]⟩

theorem rel_size [AddCommMonoid G] {ms : List Nat} {ls ss rs : Shape G} (h : ShapeRel ms ls ss rs) :
    rs.map dimSize = List.zipWith bsize (ls.map dimSize) (ss.map dimSize) ∧ ls.length = ss.length ∧ ms.length = ss.length ∧
      rs.length = ss.length := by
  induction h with
  | nil => exact ⟨rfl, rfl, rfl, rfl⟩
  | cons hd _ ih => exact ⟨by simp [hd.size, ih.1], by simp [ih.2.1], by simp [ih.2.2.1], by simp [ih.2.2.2]⟩

theorem charge_bsecs [AddCommMonoid G] : ∀ {xs ys : List (Nat × G)}, xs.length = ys.length →
    charge (bsecs xs ys) = charge xs + charge ys
  | [], [], _ => by simp [charge, bsecs]
  | x :: xs, y :: ys, h => by
    have := charge_bsecs (xs := xs) (ys := ys) (by simpa using h)
    simp only [charge, bsecs, List.zipWith_cons_cons, List.map_cons, List.sum_cons] at this ⊢
    rw [this]; exact add_add_add_comm _ _ _ _
  | [], _ :: _, h => by simp at h
  | _ :: _, [], h => by simp at h

/-! ### torch -/

theorem bcDims_comm (x y : List Nat) : bcDims x y = bcDims y x := by
  have key : ∀ u v : List Nat, (u.zip v).mapM (fun (p : Nat × Nat) => if p.1 = p.2 then some p.1 else if p.1 = 1 then
      some p.2 else if p.2 = 1 then some p.1 else none) = (v.zip u).mapM (fun (p : Nat × Nat) => if p.1 = p.2 then some p.1
      else if p.1 = 1 then some p.2 else if p.2 = 1 then some p.1 else none) := by
    intro u
    induction u with
    | nil => intro v; cases v <;> rfl
    | cons a u ih =>
      intro v
      cases v with
      | nil => rfl
      | cons b v =>
        rw [List.zip_cons_cons, List.zip_cons_cons, List.mapM_cons, List.mapM_cons, ih v]
        congr 1
        by_cases h : a = b
        · simp [h]
        · have h' : ¬ b = a := fun e => h e.symm
          rw [if_neg h, if_neg h']
          by_cases h1 : a = 1 <;> by_cases h2 : b = 1
          · omega
          · simp [h1, h2]
          · simp [h1, h2]
          · simp [h1, h2]
  unfold bcDims
  dsimp only
  rw [max_comm y.length, key]

theorem torchOp_flip (op : R → R → R) (x y : Blk R) : torchOp op x y = torchOp (fun a b => op b a) y x := by
  simp only [torchOp, bcDims_comm x.dims y.dims]

theorem bcDims_eq {a xs ys : List Nat} (h : List.Forall₂ (fun x y => x = y ∨ x = 1 ∨ y = 1) xs ys) :
    bcDims (a ++ xs) ys = some (a ++ List.zipWith bsize xs ys) := by
  have hl := h.length_eq
  unfold bcDims
  dsimp only
  rw [List.length_append, show max (a.length + xs.length) ys.length = a.length + xs.length by omega, Nat.sub_self,
    List.replicate_zero, List.nil_append, show a.length + xs.length - ys.length = a.length by omega,
    List.zip_append (by simp), List.mapM_append]
  have h1 : (a.zip (List.replicate a.length 1)).mapM (fun (p : Nat × Nat) => if p.1 = p.2 then some p.1 else if p.1 = 1 then
      some p.2 else if p.2 = 1 then some p.1 else none) = some a := by
    clear h hl
    induction a with
    | nil => rfl
    | cons n a ih =>
      rw [List.length_cons, List.replicate_succ, List.zip_cons_cons, List.mapM_cons, ih]
      by_cases hn : n = 1 <;> simp [hn]
  have h2 : (xs.zip ys).mapM (fun (p : Nat × Nat) => if p.1 = p.2 then some p.1 else if p.1 = 1 then
      some p.2 else if p.2 = 1 then some p.1 else none) = some (List.zipWith bsize xs ys) := by
    clear hl h1
    induction h with
    | nil => rfl
    | @cons x y _ _ hxy _ ih =>
      rw [List.zip_cons_cons, List.mapM_cons, ih]
      by_cases h1 : x = y
      · subst h1
        simp [bsize]
      · rcases hxy with hxy | rfl | rfl
        · exact absurd hxy h1
        · simp [bsize, h1]
        · simp [bsize, h1]
  rw [h1, h2]
  rfl

/-! ### The loop over pairs of blocks -/

theorem emplaceEnd {acc : FM (List Nat) (Blk R)} (hs : Sorted acc) (k : List Nat) (v : Blk R) :
    ∃ r, FM.emplaceHint acc acc.length k v = .ok r ∧ r.1 = (FM.insert acc k v).1 := by
  obtain ⟨_, pos, h, _⟩ := FM.C12_usual_hints_partial hs k v acc.length (Or.inl rfl)
  exact ⟨_, h, by rw [FM.emplace_eq_insert hs]⟩

theorem fold_pairs {α : Type} {step : FM (List Nat) (Blk R) → α → Res (FM (List Nat) (Blk R))} {m : α → Bool}
    {κ : α → List Nat} {v : α → Blk R} : ∀ (ps D : List α) (acc : FM (List Nat) (Blk R)), Sorted acc →
    (∀ p ∈ ps, ∀ acc, Sorted acc → step acc p = .ok (if m p then (FM.insert acc (κ p) (v p)).1 else acc)) →
    (∀ p ∈ D ++ ps, ∀ q ∈ D ++ ps, m p = true → m q = true → κ p = κ q → v p = v q) →
    (∀ k b, lookup acc k = some b ↔ ∃ p ∈ D, m p = true ∧ k = κ p ∧ b = v p) →
    ∃ bl, ps.foldlM step acc = .ok bl ∧ Sorted bl ∧
      ∀ k b, lookup bl k = some b ↔ ∃ p ∈ D ++ ps, m p = true ∧ k = κ p ∧ b = v p
  | [], D, acc, hs, _, _, hl => ⟨acc, rfl, hs, by simpa using hl⟩
  | p :: ps, D, acc, hs, hstep, hinj, hl => by
    obtain ⟨i1, i2, _⟩ := FM.insert_eq hs (κ p) (v p)
    have hs' : Sorted (if m p then (FM.insert acc (κ p) (v p)).1 else acc) := by split <;> assumption
    obtain ⟨bl, b1, b2, b3⟩ := fold_pairs ps (D ++ [p]) _ hs' (fun q hq => hstep q (by simp [hq]))
      (by simpa using hinj) (by
        intro k b
        by_cases hm : m p = true
        · rw [if_pos hm, i2]
          by_cases hk : k = κ p
          · rw [if_pos hk]
            rcases hlk : lookup acc (κ p) with _ | w
            · constructor
              · intro h
                exact ⟨p, by simp, hm, hk, by simpa using h.symm⟩
              · rintro ⟨q, hq, h1, h2, rfl⟩
                rw [hinj p (by simp) q (by simp at hq ⊢; tauto) hm h1 (hk ▸ h2)]; rfl
            · obtain ⟨q, q1, q2, q3, q4⟩ := (hl _ _).1 hlk
              have := hinj p (by simp) q (by simp [q1]) hm q2 q3
              constructor
              · intro h
                exact ⟨p, by simp, hm, hk, by rw [this, ← q4]; simpa using h.symm⟩
              · rintro ⟨q', hq', h1, h2, rfl⟩
                rw [← hinj p (by simp) q' (by simp at hq' ⊢; tauto) hm h1 (hk ▸ h2), this, ← q4]; rfl
          · rw [if_neg hk, hl]
            constructor
            · rintro ⟨q, h1, h2⟩; exact ⟨q, by simp [h1], h2⟩
            · rintro ⟨q, h1, h2, h3, h4⟩
              rcases List.mem_append.1 h1 with h1 | h1
              · exact ⟨q, h1, h2, h3, h4⟩
              · simp at h1; subst h1; exact absurd h3 hk
        · rw [if_neg hm, hl]
          constructor
          · rintro ⟨q, h1, h2⟩; exact ⟨q, by simp [h1], h2⟩
          · rintro ⟨q, h1, h2, h3, h4⟩
            rcases List.mem_append.1 h1 with h1 | h1
            · exact ⟨q, h1, h2, h3, h4⟩
            · simp at h1; subst h1; exact absurd h2 hm)
    refine ⟨bl, ?_, b2, by simpa using b3⟩
    rw [List.foldlM_cons, hstep p (by simp) acc hs]
    exact b1

/-- The key of a pair of blocks. -/
def outKey (l s : List Nat) : List Nat := l.take (l.length - s.length) ++ List.zipWith max (l.drop (l.length - s.length)) s

/-- The block of a pair of blocks. -/
def opBlk (op : R → R → R) (x y : Blk R) : Blk R :=
  ⟨(bcDims x.dims y.dims).getD [], fun o => op (x.f (clip x.dims o)) (y.f (clip y.dims o))⟩

/-- One pair of blocks, the first one of the tensor of larger rank. -/
def stepLS (op : R → R → R) (mask : List Nat) (acc : FM (List Nat) (Blk R)) (p : (List Nat × Blk R) × List Nat × Blk R) :
    Res (FM (List Nat) (Blk R)) := do
  if matchIndex mask p.1.1 p.2.1 then
    let k ← outIndex p.1.1 p.2.1
    let blk ← torchOp op p.1.2 p.2.2
    let r ← FM.emplaceHint acc acc.length k blk
    .ok r.1
  else .ok acc

/-- What the pairs of blocks of `L` and `S` give. -/
theorem bpair_facts [AddCommMonoid G] {L S : BT G R} (hL : Conserving L.shape L.rule L.blocks)
    (hS : Conserving S.shape S.rule S.blocks) {ms : List Nat} {lead tl rs : Shape G} (hsh : L.shape = lead ++ tl)
    (hr : ShapeRel ms tl S.shape rs) {l s : List Nat × Blk R} (hl : l ∈ L.blocks) (hs : s ∈ S.blocks) :
    ∃ k1 k2 x1 x2 ys, l.1 = k1 ++ k2 ∧ sections lead k1 = some x1 ∧ sections tl k2 = some x2 ∧ sections S.shape s.1 = some ys ∧
      (matchIndex ms l.1 s.1 = true ↔ MaskEq ms k2 s.1) ∧ outKey l.1 s.1 = k1 ++ List.zipWith max k2 s.1 ∧
      outIndex l.1 s.1 = .ok (outKey l.1 s.1) ∧ l.2.dims = x1.map Prod.fst ++ x2.map Prod.fst ∧ s.2.dims = ys.map Prod.fst ∧
      charge x1 + charge x2 = L.rule ∧ charge ys = S.rule := by
  obtain ⟨xs, a1, a2, a3⟩ := hL.block l.1 l.2 hl
  obtain ⟨ys, b1, b2, b3⟩ := hS.block s.1 s.2 hs
  rw [hsh] at a1
  obtain ⟨k1, k2, x1, x2, e1, e2, e3, e4⟩ := sections_append_inv a1
  obtain ⟨_, r2, r3, _⟩ := rel_size hr
  have l1 := (sections_length e4).1
  have l2 := (sections_length b1).1
  have hlen : l.1.length - s.1.length = k1.length := by rw [e1, List.length_append]; omega
  have hk : outKey l.1 s.1 = k1 ++ List.zipWith max k2 s.1 := by
    unfold outKey
    rw [hlen, e1]
    simp
  refine ⟨k1, k2, x1, x2, ys, e1, e3, e4, b1, ?_, hk, ?_, by rw [a3, e2, List.map_append], b3, ?_, b2⟩
  · have h2 : k2.length = ms.length := by omega
    have h3 : s.1.length = ms.length := by omega
    rw [← matchIndex_iff h2 h3]
    unfold matchIndex
    rw [e1, List.length_append, ← h2, Nat.add_sub_cancel, List.drop_left, h2, ← h3, Nat.sub_self, List.drop_zero]
  · unfold outIndex outKey
    dsimp only
    rw [if_neg (by rw [e1, List.length_append]; omega)]
  · rw [← charge_append, ← e2, a2]

theorem clip_eq {dims o : List Nat} (h : dims.length = o.length) : clip dims o = clips dims o := by
  unfold clip clips clip1
  rw [h, Nat.sub_self, List.drop_zero]

theorem clip_append_right {dims o1 o2 : List Nat} (h : dims.length = o2.length) : clip dims (o1 ++ o2) = clips dims o2 := by
  unfold clip clips clip1
  rw [List.length_append, h, Nat.add_sub_cancel, List.drop_left]

theorem clips_append {d1 d2 o1 o2 : List Nat} (h : d1.length = o1.length) :
    clips (d1 ++ d2) (o1 ++ o2) = clips d1 o1 ++ clips d2 o2 := by
  unfold clips
  rw [List.zipWith_append h]

theorem inRange_append_inv {e a b : List Nat} (h : InRange e (a ++ b)) : ∃ e1 e2, e = e1 ++ e2 ∧ InRange e1 a ∧ InRange e2 b := by
  induction a generalizing e with
  | nil => exact ⟨[], e, rfl, .nil, h⟩
  | cons n a ih =>
    cases h with
    | cons h1 h2 =>
      obtain ⟨e1, e2, rfl, h3, h4⟩ := ih h2
      exact ⟨_ :: e1, e2, rfl, .cons h1 h3, h4⟩

theorem held_iff {shape : Shape G} {bs : FM (List Nat) (Blk R)} (hs : Sorted bs) {e k o : List Nat}
    (h : locateAll shape e = some (k, o)) : Held shape bs e ↔ (lookup bs k).isSome = true := by
  rw [Option.isSome_iff_exists]
  constructor
  · rintro ⟨k', o', b, h1, h2⟩
    rw [h] at h1
    cases h1
    exact ⟨b, (lookup_iff_mem hs).2 h2⟩
  · rintro ⟨b, hb⟩
    exact ⟨k, o, b, h, (lookup_iff_mem hs).1 hb⟩

theorem broadcast_held [AddCommMonoid G] [Zero R] (op : R → R → R)
    {L S : BT G R} (hL : Conserving L.shape L.rule L.blocks) (hS : Conserving S.shape S.rule S.blocks)
    {ms : List Nat} {lead tl rs : Shape G} (hsh : L.shape = lead ++ tl) (hr : ShapeRel ms tl S.shape rs)
    {α : Type} (ps : List α) (fst snd : α → List Nat × Blk R)
    (hps : ∀ l s, (∃ p ∈ ps, fst p = l ∧ snd p = s) ↔ l ∈ L.blocks ∧ s ∈ S.blocks)
    (step : FM (List Nat) (Blk R) → α → Res (FM (List Nat) (Blk R)))
    (hstep : ∀ p ∈ ps, ∀ acc, Sorted acc → step acc p = stepLS op ms acc (fst p, snd p)) :
    ∃ bl, ps.foldlM step [] = .ok bl ∧ Conserving (lead ++ rs) (L.rule + S.rule) bl ∧
      ∀ e, InRange e ((lead ++ rs).map dimSize) →
        (Held L.shape L.blocks (clip (L.shape.map dimSize) e) → Held S.shape S.blocks (clip (S.shape.map dimSize) e) →
          entry (lead ++ rs) bl e =
            op (entry L.shape L.blocks (clip (L.shape.map dimSize) e)) (entry S.shape S.blocks (clip (S.shape.map dimSize) e))) ∧
        (¬ (Held L.shape L.blocks (clip (L.shape.map dimSize) e) ∧ Held S.shape S.blocks (clip (S.shape.map dimSize) e)) →
          entry (lead ++ rs) bl e = 0) := by
  have hmem : ∀ p ∈ ps, fst p ∈ L.blocks ∧ snd p ∈ S.blocks := fun p hp => (hps _ _).1 ⟨p, hp, rfl, rfl⟩
  obtain ⟨z1, z2, z3, z4⟩ := rel_size hr
  -- keys determine pairs
  have huniq : ∀ l ∈ L.blocks, ∀ s ∈ S.blocks, ∀ l' ∈ L.blocks, ∀ s' ∈ S.blocks, matchIndex ms l.1 s.1 = true →
      matchIndex ms l'.1 s'.1 = true → outKey l.1 s.1 = outKey l'.1 s'.1 → l.1 = l'.1 ∧ s.1 = s'.1 := by
    intro l hl s hs l' hl' s' hs' m1 m2 hk
    obtain ⟨k1, k2, x1, x2, ys, a1, a2, a3, a4, a5, a6, _⟩ := bpair_facts hL hS hsh hr hl hs
    obtain ⟨k1', k2', x1', x2', ys', b1, b2, b3, b4, b5, b6, _⟩ := bpair_facts hL hS hsh hr hl' hs'
    rw [a6, b6] at hk
    have hlen : k1.length = k1'.length := by rw [(sections_length a2).1, (sections_length b2).1]
    obtain ⟨g1, g2⟩ := List.append_inj hk hlen
    obtain ⟨f1, f2⟩ := rel_unique hr a3 a4 b3 b4 (a5.1 m1) (b5.1 m2) g2
    exact ⟨by rw [a1, b1, g1, f1], f2⟩
  have hval : ∀ {bs : FM (List Nat) (Blk R)}, Sorted bs → ∀ x ∈ bs, ∀ y ∈ bs, x.1 = y.1 → x = y := by
    intro bs hb x hx y hy h
    have h1 := (lookup_iff_mem hb).2 hx
    have h2 := (lookup_iff_mem hb).2 hy
    rw [h, h2] at h1
    exact Prod.ext h (by simpa using h1.symm)
  obtain ⟨bl, b1, b2, b3⟩ := fold_pairs (R := R) (step := step) (m := fun p => matchIndex ms (fst p).1 (snd p).1)
    (κ := fun p => outKey (fst p).1 (snd p).1) (v := fun p => opBlk op (fst p).2 (snd p).2) ps [] [] .nil
    (by
      intro p hp acc hs
      obtain ⟨m1, m2⟩ := hmem p hp
      obtain ⟨k1, k2, x1, x2, ys, a1, a2, a3, a4, a5, a6, a7, a8, a9, _⟩ := bpair_facts hL hS hsh hr m1 m2
      rw [hstep p hp acc hs]
      unfold stepLS
      dsimp only
      by_cases hm : matchIndex ms (fst p).1 (snd p).1 = true
      · rw [if_pos hm, if_pos hm, a7]
        obtain ⟨c1, c2⟩ := rel_sections hr a3 a4 (a5.1 hm)
        have hd : bcDims (fst p).2.dims (snd p).2.dims = some (x1.map Prod.fst ++ List.zipWith bsize (x2.map Prod.fst) (ys.map Prod.fst)) := by
          rw [a8, a9]
          exact bcDims_eq (List.forall₂_map_left_iff.2 (List.forall₂_map_right_iff.2 c2))
        obtain ⟨r, r1, r2⟩ := emplaceEnd hs (outKey (fst p).1 (snd p).1) (opBlk op (fst p).2 (snd p).2)
        have ht : torchOp op (fst p).2 (snd p).2 = .ok (opBlk op (fst p).2 (snd p).2) := by
          simp only [torchOp, hd, opBlk, Option.getD_some]
        simp only [bind, Except.bind, ht, r1, r2]
      · rw [if_neg hm, if_neg hm])
    (by
      intro p hp q hq m1 m2 hk
      simp only [List.nil_append] at hp hq
      obtain ⟨p1, p2⟩ := hmem p hp
      obtain ⟨q1, q2⟩ := hmem q hq
      obtain ⟨e1, e2⟩ := huniq _ p1 _ p2 _ q1 _ q2 m1 m2 hk
      rw [hval hL.sorted _ p1 _ q1 e1, hval hS.sorted _ p2 _ q2 e2])
    (by intro k b; simp [lookup])
  simp only [List.nil_append] at b3
  have b4 : ∀ k b, lookup bl k = some b ↔ ∃ l s, l ∈ L.blocks ∧ s ∈ S.blocks ∧ matchIndex ms l.1 s.1 = true ∧
      k = outKey l.1 s.1 ∧ b = opBlk op l.2 s.2 := by
    intro k b
    rw [b3]
    constructor
    · rintro ⟨p, hp, h1, h2, h3⟩
      exact ⟨_, _, (hmem p hp).1, (hmem p hp).2, h1, h2, h3⟩
    · rintro ⟨l, s, hl, hs, h1, h2, h3⟩
      obtain ⟨p, hp, rfl, rfl⟩ := (hps l s).2 ⟨hl, hs⟩
      exact ⟨p, hp, h1, h2, h3⟩
  refine ⟨bl, b1, ⟨b2, ?_⟩, ?_⟩
  · intro k b hb
    obtain ⟨l, s, hl, hs, h1, rfl, rfl⟩ := (b4 k b).1 ((lookup_iff_mem b2).2 hb)
    obtain ⟨k1, k2, x1, x2, ys, a1, a2, a3, a4, a5, a6, a7, a8, a9, a10, a11⟩ := bpair_facts hL hS hsh hr hl hs
    obtain ⟨c1, c2⟩ := rel_sections hr a3 a4 (a5.1 h1)
    refine ⟨x1 ++ bsecs x2 ys, ?_, ?_, ?_⟩
    · rw [a6]; exact sections_append a2 c1
    · rw [charge_append, charge_bsecs c2.length_eq, ← add_assoc, a10, a11]
    · simp only [opBlk]
      rw [a8, a9, bcDims_eq (List.forall₂_map_left_iff.2 (List.forall₂_map_right_iff.2 c2))]
      simp only [Option.getD_some, List.map_append, bsecs, List.map_zipWith, List.zipWith_map]
  · intro e he
    rw [List.map_append] at he
    obtain ⟨e1, e2, rfl, he1, he2⟩ := inRange_append_inv he
    obtain ⟨⟨k1, o1⟩, g1⟩ := locateAll_isSome.2 he1
    obtain ⟨⟨k2, o2⟩, g2⟩ := locateAll_isSome.2 he2
    obtain ⟨ki, oi, kj, oj, c1, c2, c3, c4, c5⟩ := rel_locate hr g2
    have n1 := he1.length_eq
    have n2 := he2.length_eq
    rw [List.length_map] at n1 n2
    have hcL : clip (L.shape.map dimSize) (e1 ++ e2) = e1 ++ clips (tl.map dimSize) e2 := by
      rw [clip_eq (by rw [hsh, List.length_map, List.length_append, List.length_append]; omega), hsh, List.map_append,
        clips_append (by rw [List.length_map]; omega), clips_inRange he1]
    have hcS : clip (S.shape.map dimSize) (e1 ++ e2) = clips (S.shape.map dimSize) e2 :=
      clip_append_right (by rw [List.length_map]; omega)
    have hlL : locateAll L.shape (e1 ++ clips (tl.map dimSize) e2) = some (k1 ++ ki, o1 ++ oi) := by
      rw [hsh]; exact locateAll_append g1 c1
    obtain ⟨x1, s1, s1'⟩ := locateAll_sections g1
    obtain ⟨x2, s2, s2'⟩ := locateAll_sections c1
    obtain ⟨ys, s3, s3'⟩ := locateAll_sections c2
    obtain ⟨rsec, s4, s4'⟩ := locateAll_sections g2
    rw [hcL, hcS]
    have hHL := held_iff hL.sorted hlL
    have hHS := held_iff hS.sorted c2
    rw [hHL, hHS]
    unfold entry
    rw [locateAll_append g1 g2, hlL, c2]
    dsimp only
    have key : ∀ b, lookup bl (k1 ++ k2) = some b ↔ ∃ x y, lookup L.blocks (k1 ++ ki) = some x ∧ lookup S.blocks kj = some y ∧
        b = opBlk op x y := by
      intro b
      rw [b4]
      constructor
      · rintro ⟨l, s, hl, hs, m, hk, rfl⟩
        obtain ⟨k1', k2', x1', x2', ys', a1, a2, a3, a4, a5, a6, _⟩ := bpair_facts hL hS hsh hr hl hs
        rw [a6, c4] at hk
        have hlen : k1.length = k1'.length := by rw [(sections_length a2).1, (sections_length s1).1]
        obtain ⟨f1, f2⟩ := List.append_inj hk hlen
        obtain ⟨f3, f4⟩ := rel_unique hr s2 s3 a3 a4 c3 (a5.1 m) f2
        refine ⟨l.2, s.2, ?_, ?_, rfl⟩
        · rw [f1, f3, ← a1]; exact (lookup_iff_mem hL.sorted).2 hl
        · rw [f4]; exact (lookup_iff_mem hS.sorted).2 hs
      · rintro ⟨x, y, hx, hy, rfl⟩
        have hl := (lookup_iff_mem hL.sorted).1 hx
        have hs := (lookup_iff_mem hS.sorted).1 hy
        obtain ⟨k1', k2', x1', x2', ys', a1, a2, a3, a4, a5, a6, _⟩ := bpair_facts hL hS hsh hr hl hs
        have hlen : k1.length = k1'.length := by rw [(sections_length a2).1, (sections_length s1).1]
        obtain ⟨f1, f2⟩ := List.append_inj a1 hlen
        subst f1; subst f2
        exact ⟨_, _, hl, hs, a5.2 c3, by rw [a6, c4], rfl⟩
    rcases hx : lookup L.blocks (k1 ++ ki) with _ | x
    · have : lookup bl (k1 ++ k2) = none := by
        rcases hb : lookup bl (k1 ++ k2) with _ | b
        · rfl
        · obtain ⟨x, y, h1, _⟩ := (key b).1 hb
          rw [hx] at h1; cases h1
      rw [this]
      exact ⟨fun h => by simp at h, fun _ => rfl⟩
    · rcases hy : lookup S.blocks kj with _ | y
      · have : lookup bl (k1 ++ k2) = none := by
          rcases hb : lookup bl (k1 ++ k2) with _ | b
          · rfl
          · obtain ⟨x, y, _, h1, _⟩ := (key b).1 hb
            rw [hy] at h1; cases h1
        rw [this]
        exact ⟨fun _ h => by simp at h, fun _ => rfl⟩
      · rw [(key _).2 ⟨x, y, hx, hy, rfl⟩]
        dsimp only [opBlk]
        have hl := (lookup_iff_mem hL.sorted).1 hx
        have hs := (lookup_iff_mem hS.sorted).1 hy
        obtain ⟨k1', k2', x1', x2', ys', a1, a2, a3, a4, a5, a6, a7, a8, a9, _⟩ := bpair_facts hL hS hsh hr hl hs
        have hlen : k1.length = k1'.length := by rw [(sections_length a2).1, (sections_length s1).1]
        obtain ⟨f1, f2⟩ := List.append_inj a1 hlen
        subst f1; subst f2
        rw [s1] at a2; cases a2
        rw [s2] at a3; cases a3
        rw [s3] at a4; cases a4
        obtain ⟨w1, w2⟩ := c5 _ _ s2 s3
        have t1 := s1'.length_eq
        have t2 := s4'.length_eq
        rw [List.length_map] at t1 t2
        have t3 := (sections_length s1).2
        have t4 := (sections_length s2).2
        have t5 := (sections_length s3).2
        have t6 := (sections_length s4).2
        refine ⟨fun _ _ => ?_, fun h => absurd ⟨rfl, rfl⟩ h⟩
        rw [a8, a9, clip_eq (by rw [List.length_append, List.length_append, List.length_map, List.length_map]; omega),
          clips_append (by rw [List.length_map]; omega), clips_inRange s1', ← w1,
          clip_append_right (by rw [List.length_map]; omega), ← w2]

theorem entry_not_held [Zero R] {shape : Shape G} {bs : FM (List Nat) (Blk R)} {e : List Nat}
    (h : ¬ Held shape bs e) : entry shape bs e = 0 := by
  unfold entry
  rcases hl : locateAll shape e with _ | ⟨k, o⟩
  · rfl
  · dsimp only
    rcases hb : lookup bs k with _ | b
    · rfl
    · exact absurd ⟨k, o, b, hl, mem_of_lookup hb⟩ h

theorem broadcast_core [AddCommMonoid G] [Zero R] (op : R → R → R) (h0 : ∀ x, op 0 x = 0) (h0' : ∀ x, op x 0 = 0)
    {L S : BT G R} (hL : Conserving L.shape L.rule L.blocks) (hS : Conserving S.shape S.rule S.blocks)
    {ms : List Nat} {lead tl rs : Shape G} (hsh : L.shape = lead ++ tl) (hr : ShapeRel ms tl S.shape rs)
    {α : Type} (ps : List α) (fst snd : α → List Nat × Blk R)
    (hps : ∀ l s, (∃ p ∈ ps, fst p = l ∧ snd p = s) ↔ l ∈ L.blocks ∧ s ∈ S.blocks)
    (step : FM (List Nat) (Blk R) → α → Res (FM (List Nat) (Blk R)))
    (hstep : ∀ p ∈ ps, ∀ acc, Sorted acc → step acc p = stepLS op ms acc (fst p, snd p)) :
    ∃ bl, ps.foldlM step [] = .ok bl ∧ Conserving (lead ++ rs) (L.rule + S.rule) bl ∧
      ∀ e, InRange e ((lead ++ rs).map dimSize) → entry (lead ++ rs) bl e =
        op (entry L.shape L.blocks (clip (L.shape.map dimSize) e)) (entry S.shape S.blocks (clip (S.shape.map dimSize) e)) := by
  obtain ⟨bl, h1, h2, h3⟩ := broadcast_held op hL hS hsh hr ps fst snd hps step hstep
  refine ⟨bl, h1, h2, fun e he => ?_⟩
  obtain ⟨h4, h5⟩ := h3 e he
  by_cases hl : Held L.shape L.blocks (clip (L.shape.map dimSize) e)
  · by_cases hs : Held S.shape S.blocks (clip (S.shape.map dimSize) e)
    · exact h4 hl hs
    · rw [h5 fun h => hs h.2, entry_not_held hs, h0']
  · rw [h5 fun h => hl h.1, entry_not_held hl, h0]

end BT
end QuantiT
